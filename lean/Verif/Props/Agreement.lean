import Verif.Props.Algebra
import Mathlib.Tactic.TFAE
/-!
# C108: the queries of a `NoditMap` agree with each other

Different calls answering the same question give the same answer: whether anything is stored in an interval, whether all of it is
covered, what is at a single point, what is found by `overlapping`, `remove_overlapping` and `cut`, the trimmed and the untrimmed
gaps; and how the answers change with the query.
-/
set_option linter.unusedSectionVars false
namespace Nodit
open Spec PointType NoditMap

variable {I K Q Q' V : Type} [PointType I] [IntervalType I K] [IntervalType I Q] [IntervalType I Q'] [LawfulPoint I] [LawfulInterval I K]

/-- the points of a query, in a form that can be converted to any interval type -/
theorem mem_mk {p : I} {q : Q} : Mem p (⟨start q, stop q⟩ : Interval I) ↔ Mem p q := Iff.rfl

omit [LawfulInterval I K] in
theorem overlapping_eq_filter {m : NoditMap K V} (h : WF m.iter) {q : Q} (hq : Valid q) : m.overlapping q = .ok (m.iter.filter (ovl q)) :=
  overlapping_ok (wf_iff_chain.1 h) (valid_iff.1 hq)

omit [LawfulPoint I] [LawfulInterval I K] in
theorem filter_ovl_nil {m : NoditMap K V} (h : WF m.iter) {q : Q} (hq : Valid q) :
    m.iter.filter (ovl q) = [] ↔ ∀ e ∈ m.iter, ¬ Overlap e.1 q := by
  rw [List.filter_eq_nil_iff]
  exact forall₂_congr fun e he => by rw [ovl_iff (valid_iff.1 hq) (valid_iff.1 (h.1 e he))]

/-- **C108**: eight ways to find out that nothing is stored in an interval agree: `overlaps` is false, `overlapping` is empty,
`remove_overlapping` and `cut` return nothing and change nothing, the trimmed gaps are the whole interval, one untrimmed gap
contains the interval, no point of the interval is contained in the map, no point has a value. -/
theorem C108_nothing_there {m : NoditMap K V} (h : WF m.iter) {q : Q} (hq : Valid q) :
    List.TFAE [
      m.overlaps q = .ok false,
      m.overlapping q = .ok [],
      m.removeOverlapping q = .ok (m, []),
      m.cut q = .ok (m, []),
      m.gapsTrimmed q = .ok [ofInterval ⟨start q, stop q⟩],
      ∃ g, m.gapsUntrimmed q = .ok [g] ∧ ∀ p : I, Mem p q → Mem p g,
      ∀ p : I, Mem p q → m.containsPoint p = .ok false,
      ∀ p : I, Mem p q → m.getAtPoint p = .ok none] := by
  have hc := wf_iff_chain.1 h
  have hq' := valid_iff.1 hq
  let N := ∀ e ∈ m.iter, ¬ Overlap e.1 q
  have hN : N ↔ ∀ p : I, Mem p q → ∀ e ∈ m.iter, ¬ Mem p e.1 :=
    ⟨fun hn p hp e he hpe => hn e he ⟨p, hpe, hp⟩, fun hn e he ⟨p, hpe, hp⟩ => hn p hp e he hpe⟩
  have i1 : m.overlaps q = .ok false ↔ N := by
    obtain ⟨b, h1, h2⟩ := spec_overlaps h hq
    rw [h1]; simp only [Except.ok.injEq]
    rw [← Bool.not_eq_true, h2]
    exact ⟨fun hn e he ho => hn ⟨e, he, ho⟩, fun hn ⟨e, he, ho⟩ => hn e he ho⟩
  have i2 : m.overlapping q = .ok [] ↔ N := by
    rw [overlapping_eq_filter h hq, Except.ok.injEq, filter_ovl_nil h hq]
  have i3 : m.removeOverlapping q = .ok (m, []) ↔ N := by
    rw [removeOverlapping_ok hc hq', Except.ok.injEq, Prod.mk.injEq]
    refine Iff.trans ?_ (filter_ovl_nil h hq)
    refine ⟨fun h => h.2, fun hn => ⟨?_, hn⟩⟩
    rw [List.filter_eq_nil_iff] at hn
    have : m.inner.filter (fun e => !ovl q e) = m.inner := List.filter_eq_self.2 (fun e he => by simpa using hn e he)
    rw [this]
  have i4 : m.cut q = .ok (m, []) ↔ N := by
    obtain ⟨m', out, h1, h2, h3, h4⟩ := spec_cut h hq
    rw [h1, Except.ok.injEq, Prod.mk.injEq]
    constructor
    · rintro ⟨-, rfl⟩ e he ⟨p, hp, hp'⟩
      have he' := valid_iff.1 (h.1 e he)
      have ho : start e.1 ≤ stop q ∧ start q ≤ stop e.1 := ⟨le_trans hp.1 hp'.2, le_trans hp'.1 hp.2⟩
      have := (h4.2 (ofInterval ⟨max (start e.1) (start q), min (stop e.1) (stop q)⟩, e.2)).2
        ⟨e, he, _, rfl, ⟨p, max_le hp.1 hp'.1, le_min hp.2 hp'.2⟩, fun x => by simp only [Mem, start, stop, max_le_iff, le_min_iff]; tauto⟩
      simp at this
    · intro hn
      have hout : out = [] := by
        rw [List.eq_nil_iff_forall_not_mem]
        intro e he
        obtain ⟨f, hf, i, -, ⟨p, hp⟩, hi⟩ := (h4.2 e).1 he
        exact hn f hf ⟨p, (hi p).1 hp⟩
      refine ⟨NoditMap.ext_entries h2 h fun e => ?_, hout⟩
      change e ∈ m'.entrySet ↔ e ∈ m.entrySet
      rw [h3]
      constructor
      · rintro (⟨he, -⟩ | ⟨f, hf, ho, -⟩)
        · exact he
        · exact absurd ho (hn f hf)
      · exact fun he => Or.inl ⟨he, hn e he⟩
  have i7 : (∀ p : I, Mem p q → m.containsPoint p = .ok false) ↔ N := by
    rw [hN]
    refine forall₂_congr fun p _ => ?_
    obtain ⟨-, -, ⟨b, h1, h2⟩, -⟩ := C03_point_lookup h p
    rw [h1, Except.ok.injEq, ← Bool.not_eq_true, h2]; simp
  have i8 : (∀ p : I, Mem p q → m.getAtPoint p = .ok none) ↔ N := by
    rw [hN]
    refine forall₂_congr fun p _ => ?_
    obtain ⟨-, ⟨r, h1, h2⟩, -, -⟩ := C03_point_lookup h p
    rw [h1, Except.ok.injEq, Option.eq_none_iff_forall_ne_some]
    constructor
    · intro hr e he hp; exact hr e.2 ((h2 _).2 ⟨e, he, hp, rfl⟩)
    · rintro hn v hv; obtain ⟨e, he, hp, -⟩ := (h2 v).1 hv; exact hn e he hp
  have i6 : (∃ g, m.gapsUntrimmed q = .ok [g] ∧ ∀ p : I, Mem p q → Mem p g) ↔ N := by
    obtain ⟨gs, h1, h2, h3⟩ := spec_gapsUntrimmed h hq
    rw [h1, hN]
    constructor
    · rintro ⟨g, hg, hsub⟩ p hp e he hpe
      rw [Except.ok.injEq] at hg; subst hg
      obtain ⟨i, rfl, hi, -⟩ := (h3 g).1 (by simp)
      have := hsub p hp
      simp only [Mem, start_of, stop_of] at this
      exact hi.2.1 p this ⟨e, he, hpe⟩
    · intro hn
      obtain ⟨p, hp⟩ := hq
      obtain ⟨g, -, hg1, hg2, hg3⟩ := C04_failed_lookup_returns_maximal_gap h p (hn p hp)
      have hsub : ∀ x : I, Mem x q → Mem x g := hg3 ⟨start q, stop q⟩ hp (fun x hx => hn x hx)
      have hrun : MaximalRun (fun p => ¬ Covered m.entrySet p) g :=
        ⟨⟨p, hg1⟩, fun x hx ⟨e, he, hxe⟩ => hg2 x hx e he hxe, fun j hj ⟨y, hy, hy'⟩ x hx => by
          obtain ⟨g', -, ha, hb, hcc⟩ := C04_failed_lookup_returns_maximal_gap h y (fun e he hye => hg2 y hy e he hye)
          have hjg : Mem x g' := hcc j hy' (fun z hz e he hze => hj z hz ⟨e, he, hze⟩) x hx
          have hgg : Mem p g' := hcc g hy hg2 p hg1
          exact hg3 g' hgg hb x hjg⟩
      refine ⟨ofInterval g, ?_, fun x hx => by rw [Mem, start_of, stop_of]; exact hsub x hx⟩
      rw [Except.ok.injEq]
      have hmem : ∀ k, k ∈ gs ↔ k ∈ [(ofInterval g : K)] := by
        intro k
        rw [h3, List.mem_singleton]
        constructor
        · rintro ⟨i, rfl, hi, y, hy, hyq⟩
          have : i = g := by
            have h1 := hrun.2.2 i hi.2.1 ⟨y, hsub y hyq, hy⟩
            have h2 := hi.2.2 g hrun.2.1 ⟨y, hy, hsub y hyq⟩
            have vi := valid_iff.1 hi.1
            have vg := valid_iff.1 hrun.1
            cases i; cases g
            simp only [Mem, start, stop] at *
            have a := h1 _ ⟨le_refl _, vi⟩
            have b := h1 _ ⟨vi, le_refl _⟩
            have c := h2 _ ⟨le_refl _, vg⟩
            have d := h2 _ ⟨vg, le_refl _⟩
            congr 1 <;> order
          rw [this]
        · rintro rfl; exact ⟨g, rfl, hrun, p, hg1, hp⟩
      refine ChainK.ext (ascending_iff.1 h2) ?_ hmem
      have hle : g.start ≤ g.stop := valid_iff.1 hrun.1
      exact ⟨by simpa using hle, by simp⟩
  have i5 : m.gapsTrimmed q = .ok [ofInterval ⟨start q, stop q⟩] ↔ N := by
    obtain ⟨gs, h1, h2⟩ := gapsTrimmed_eq hc hq'
    constructor
    · intro ht
      obtain ⟨out, h3, -, -, h4⟩ := C15_gaps_trimmed h q hq
      rw [ht, Except.ok.injEq] at h3; subst h3
      rw [hN]
      intro p hp e he hpe
      exact ((h4 p).1 ⟨ofInterval ⟨start q, stop q⟩, by simp, by rw [Mem, start_of, stop_of]; exact hp⟩).2 ⟨e, he, hpe⟩
    · intro hn
      obtain ⟨g, hg, hsub⟩ := i6.2 hn
      rw [h1, Except.ok.injEq] at hg; subst hg
      have s1 := (hsub _ ⟨le_refl _, hq'⟩).1
      have s2 := (hsub _ ⟨hq', le_refl _⟩).2
      rw [h2, List.map_singleton, trim, max_eq_right s1, min_eq_right s2]
  tfae_have 1 ↔ 2 := i1.trans i2.symm
  tfae_have 1 ↔ 3 := i1.trans i3.symm
  tfae_have 1 ↔ 4 := i1.trans i4.symm
  tfae_have 1 ↔ 5 := i1.trans i5.symm
  tfae_have 1 ↔ 6 := i1.trans i6.symm
  tfae_have 1 ↔ 7 := i1.trans i7.symm
  tfae_have 1 ↔ 8 := i1.trans i8.symm
  tfae_finish

theorem tfae_true {l : List Prop} (h : ∀ a ∈ l, a) : l.TFAE := fun a ha b hb => iff_of_true (h a ha) (h b hb)
theorem tfae_false {l : List Prop} (h : ∀ a ∈ l, ¬ a) : l.TFAE := fun a ha b hb => iff_of_false (h a ha) (h b hb)

/-- **C108**: `overlaps` foretells the inserts: the three refusing inserts succeed exactly when it is false, and exactly then
`insert_overwrite` returns nothing; otherwise they hand the value back and change nothing. -/
theorem C108_overlaps_foretells_inserts [BEq V] {m : NoditMap K V} (h : WF m.iter) {k : K} (hk : Valid k) (v : V) :
    List.TFAE [
      m.overlaps k = .ok false,
      ∃ m', m.insertStrict k v = .ok (m', .ok ()),
      ∃ m' k', m.insertMergeTouching k v = .ok (m', .ok k'),
      ∃ m' k', m.insertMergeTouchingIfValuesEqual k v = .ok (m', .ok k'),
      ∃ m', m.insertOverwrite k v = .ok (m', [])] ∧
    List.TFAE [
      m.overlaps k = .ok true,
      m.insertStrict k v = .ok (m, .error ⟨v⟩),
      m.insertMergeTouching k v = .ok (m, .error ⟨v⟩),
      m.insertMergeTouchingIfValuesEqual k v = .ok (m, .error ⟨v⟩),
      ∃ m' e l, m.insertOverwrite k v = .ok (m', e :: l)] := by
  obtain ⟨b, b1, b2⟩ := spec_overlaps h hk
  obtain ⟨ms, rs, s1, -, s2, s3⟩ := spec_insertStrict h hk v
  obtain ⟨mt, rt, t1, -, t2, t3⟩ := spec_insertMergeTouching h hk v
  obtain ⟨me, re, e1, -, e2, e3⟩ := spec_insertMergeTouchingIfValuesEqual h hk v
  obtain ⟨mc, mo, out, c1, o1, -⟩ := spec_insertOverwrite h hk v
  have hcut := ((C108_nothing_there h hk).out 0 3 : m.overlaps k = .ok false ↔ m.cut k = .ok (m, []))
  rw [c1, b1] at hcut
  simp only [Except.ok.injEq, Prod.mk.injEq] at hcut
  rw [b1, s1, t1, e1, o1]
  by_cases ho : ∃ e ∈ m.entrySet, Overlap e.1 k
  · obtain ⟨rfl, rfl⟩ := s2 ho
    obtain ⟨rfl, rfl⟩ := t2 ho
    obtain ⟨rfl, rfl⟩ := e2 ho
    have hb := b2.2 ho; subst hb
    have hout : out ≠ [] := by
      rintro rfl
      obtain ⟨e, he, p, hp, hp'⟩ := ho
      have := (C08_cut_pointwise h k hk c1 p).2.2 e.2 |>.2 ⟨hp', e, he, hp, rfl⟩
      simp at this
    obtain ⟨x, l, rfl⟩ := List.exists_cons_of_ne_nil hout
    exact ⟨tfae_false (by simp), tfae_true (by simp)⟩
  · obtain ⟨-, rfl⟩ := s3 ho
    obtain ⟨_, rfl, -⟩ := t3 ho
    obtain ⟨_, rfl, -⟩ := e3 ho
    have hb : b = false := by rw [← Bool.not_eq_true, b2]; exact ho
    subst hb
    obtain ⟨rfl, rfl⟩ := hcut.1 rfl
    exact ⟨tfae_true (by simp), tfae_false (by simp)⟩

/-- **C108**: five ways to find out that an interval is covered completely agree. -/
theorem C108_everything_there {m : NoditMap K V} (h : WF m.iter) {q : Q} (hq : Valid q) :
    List.TFAE [
      m.containsInterval q = .ok true,
      m.gapsUntrimmed q = .ok [],
      m.gapsTrimmed q = .ok [],
      ∀ p : I, Mem p q → m.containsPoint p = .ok true,
      ∀ p : I, Mem p q → ∃ v, m.getAtPoint p = .ok (some v)] := by
  let N := ∀ p : I, Mem p q → ∃ e ∈ m.iter, Mem p e.1
  obtain ⟨b, b1, b2⟩ := C16_contains_interval h q hq
  obtain ⟨gs, g1, g2⟩ := gapsTrimmed_eq (wf_iff_chain.1 h) (valid_iff.1 hq)
  obtain ⟨out, t1, -, -, t2⟩ := C15_gaps_trimmed h q hq
  have i1 : m.containsInterval q = .ok true ↔ N := by rw [b1, Except.ok.injEq, b2]
  have i3 : m.gapsTrimmed q = .ok [] ↔ N := by
    rw [t1, Except.ok.injEq]
    constructor
    · rintro rfl p hp
      by_contra hc
      obtain ⟨k, hk, -⟩ := (t2 p).2 ⟨hp, hc⟩
      simp at hk
    · intro hn
      rw [List.eq_nil_iff_forall_not_mem]
      intro k hk
      obtain ⟨out', t1', ta, -⟩ := C15_gaps_trimmed h q hq
      rw [t1, Except.ok.injEq] at t1'; subst t1'
      obtain ⟨p, hp⟩ := ta.1 k hk
      obtain ⟨h1, h2⟩ := (t2 p).1 ⟨k, hk, hp⟩
      exact h2 (hn p h1)
  have i2 : m.gapsUntrimmed q = .ok [] ↔ N := by
    rw [← i3, g1, g2, Except.ok.injEq, Except.ok.injEq, List.map_eq_nil_iff]
  have i4 : (∀ p : I, Mem p q → m.containsPoint p = .ok true) ↔ N := by
    refine forall₂_congr fun p _ => ?_
    obtain ⟨-, -, ⟨b, h1, h2⟩, -⟩ := C03_point_lookup h p
    rw [h1, Except.ok.injEq, h2]
  have i5 : (∀ p : I, Mem p q → ∃ v, m.getAtPoint p = .ok (some v)) ↔ N := by
    refine forall₂_congr fun p _ => ?_
    obtain ⟨-, ⟨r, h1, h2⟩, -, -⟩ := C03_point_lookup h p
    simp only [h1, Except.ok.injEq, h2]
    exact ⟨fun ⟨v, e, he, hp, _⟩ => ⟨e, he, hp⟩, fun ⟨e, he, hp⟩ => ⟨e.2, e, he, hp, rfl⟩⟩
  tfae_have 1 ↔ 2 := i1.trans i2.symm
  tfae_have 1 ↔ 3 := i1.trans i3.symm
  tfae_have 1 ↔ 4 := i1.trans i4.symm
  tfae_have 1 ↔ 5 := i1.trans i5.symm
  tfae_finish

/-- **C108**: `contains_point(p)` is `overlaps` and `contains_interval` of the interval of just that point; the lookups find the entry
that `overlapping` lists there, and fail with the gap that `gaps_untrimmed` lists there. -/
theorem C108_single_point {m : NoditMap K V} (h : WF m.iter) (p : I) :
    m.overlaps (⟨p, p⟩ : Interval I) = m.containsPoint p ∧
    m.containsInterval (⟨p, p⟩ : Interval I) = m.containsPoint p ∧
    (∀ e, m.getKeyValueAtPoint p = .ok (.ok e) ↔ m.overlapping (⟨p, p⟩ : Interval I) = .ok [e]) ∧
    (∀ g, m.getKeyValueAtPoint p = .ok (.error g) ↔ m.gapsUntrimmed (⟨p, p⟩ : Interval I) = .ok [g]) ∧
    (∀ v, m.getAtPoint p = .ok (some v) ↔ ∃ k, m.getKeyValueAtPoint p = .ok (.ok (k, v))) ∧
    (m.containsPoint p = .ok true ↔ ∃ e, m.getKeyValueAtPoint p = .ok (.ok e)) := by
  have hp : ∀ x : I, Mem x (⟨p, p⟩ : Interval I) ↔ x = p := fun x => by
    simp only [Mem, start, stop]; exact ⟨fun h => le_antisymm h.2 h.1, fun h => h ▸ ⟨le_refl _, le_refl _⟩⟩
  have hv : Valid (⟨p, p⟩ : Interval I) := ⟨p, (hp p).2 rfl⟩
  have hov : ∀ e : K × V, Overlap e.1 (⟨p, p⟩ : Interval I) ↔ Mem p e.1 := fun e =>
    ⟨fun ⟨x, h1, h2⟩ => (hp x).1 h2 ▸ h1, fun h => ⟨p, h, (hp p).2 rfl⟩⟩
  obtain ⟨⟨r, r1, r2⟩, ⟨o, o1, o2⟩, ⟨b, b1, b2⟩, huniq⟩ := C03_point_lookup h p
  obtain ⟨bo, bo1, bo2⟩ := spec_overlaps h hv
  obtain ⟨bc, bc1, bc2⟩ := C16_contains_interval h _ hv
  obtain ⟨l, l1, l2, l3⟩ := (C05_overlapping_exact h _ hv).1
  obtain ⟨gs, g1, g2, g3⟩ := spec_gapsUntrimmed h hv
  have hl : ∀ e, l = [e] ↔ e ∈ m.iter ∧ Mem p e.1 := by
    intro e
    constructor
    · rintro rfl; obtain ⟨h1, h2⟩ := (l3 e).1 (by simp); exact ⟨h1, (hov e).1 h2⟩
    · rintro ⟨h1, h2⟩
      refine (wf_iff_chain.1 l2).ext ⟨by simpa using valid_iff.1 (h.1 e h1), by simp⟩ fun d => ?_
      rw [l3, hov, List.mem_singleton]
      exact ⟨fun hd => huniq d hd.1 e h1 hd.2 h2, fun hd => hd ▸ ⟨h1, h2⟩⟩
  refine ⟨?_, ?_, fun e => ?_, fun g => ?_, fun v => ?_, ?_⟩
  · rw [bo1, b1, Except.ok.injEq, Bool.eq_iff_iff, bo2, b2]
    exact exists_congr fun e => and_congr_right fun _ => hov e
  · rw [bc1, b1, Except.ok.injEq, Bool.eq_iff_iff, bc2, b2]
    exact ⟨fun hx => hx p ((hp p).2 rfl), fun hx x hxp => (hp x).1 hxp ▸ hx⟩
  · rw [r1, l1, Except.ok.injEq, Except.ok.injEq, r2, hl]
  · by_cases hcov : ∃ e ∈ m.iter, Mem p e.1
    · have hg : gs = [] := by
        have := (C108_everything_there h hv).out 0 1
        rw [bc1, g1, Except.ok.injEq, Except.ok.injEq] at this
        exact this.1 (bc2.2 fun x hx => (hp x).1 hx ▸ hcov)
      obtain ⟨e, he, hpe⟩ := hcov
      rw [r1, (r2 e).2 ⟨he, hpe⟩, g1, hg]; simp
    · have hcov' : ∀ e ∈ m.iter, ¬ Mem p e.1 := fun e he hpe => hcov ⟨e, he, hpe⟩
      obtain ⟨i, i1, i2, i3, i4⟩ := C04_failed_lookup_returns_maximal_gap h p hcov'
      obtain ⟨g', e1, e2⟩ := ((C108_nothing_there h hv).out 0 5).1 (by
        rw [bo1, Except.ok.injEq, ← Bool.not_eq_true, bo2]
        exact fun ⟨e, he, ho⟩ => hcov' e he ((hov e).1 ho))
      have hgg : gs = [g'] := by rw [g1, Except.ok.injEq] at e1; exact e1
      obtain ⟨j, rfl, hj, hjo⟩ := (g3 g').1 (by rw [hgg]; simp)
      have hpj : Mem p j := by have := e2 p ((hp p).2 rfl); rw [Mem, start_of, stop_of] at this; exact this
      have hij : i = j := by
        have h1 := i4 j hpj (fun x hx e he hxe => hj.2.1 x hx ⟨e, he, hxe⟩)
        have h2 := hj.2.2 i (fun x hx ⟨e, he, hxe⟩ => i3 x hx e he hxe) ⟨p, hpj, i2⟩
        have vi : i.start ≤ i.stop := le_trans i2.1 i2.2
        have vj : j.start ≤ j.stop := le_trans hpj.1 hpj.2
        cases i; cases j
        simp only [Mem, start, stop] at *
        have a := h1 _ ⟨le_refl _, vj⟩
        have b := h1 _ ⟨vj, le_refl _⟩
        have c := h2 _ ⟨le_refl _, vi⟩
        have d := h2 _ ⟨vi, le_refl _⟩
        congr 1 <;> order
      subst hij
      rw [i1, g1, hgg]; simp
  · rw [o1, r1, Except.ok.injEq, o2]
    simp only [Except.ok.injEq, r2]
    constructor
    · rintro ⟨⟨k, w⟩, he, hk, rfl⟩; exact ⟨k, he, hk⟩
    · rintro ⟨k, he, hk⟩; exact ⟨(k, v), he, hk, rfl⟩
  · rw [b1, Except.ok.injEq, b2]
    simp only [r1, Except.ok.injEq, r2]

/-- **C108**: `overlapping`, `remove_overlapping` and `cut` find the same entries in the same order: what `remove_overlapping` returns
is what `overlapping` lists, and `cut` returns one piece for each, with its value and exactly its points inside the query. -/
theorem C108_found_by_all {m : NoditMap K V} (h : WF m.iter) {q : Q} (hq : Valid q) :
    ∃ l mr mc out, m.overlapping q = .ok l ∧ m.removeOverlapping q = .ok (mr, l) ∧ m.cut q = .ok (mc, out) ∧
      List.Forall₂ (fun piece e => piece.2 = e.2 ∧ ∀ p : I, Mem p piece.1 ↔ Mem p e.1 ∧ Mem p q) out l := by
  have hc := wf_iff_chain.1 h
  have hq' := valid_iff.1 hq
  refine ⟨_, _, _, _, overlapping_ok hc hq', removeOverlapping_ok hc hq', cut_ok hc hq', ?_⟩
  generalize m.inner = l
  induction l with
  | nil => exact List.Forall₂.nil
  | cons e l ih =>
    rw [List.flatMap_cons, cutIn]
    by_cases ho : ovl q e = true
    · rw [if_pos ho, List.filter_cons_of_pos ho, List.singleton_append]
      refine List.Forall₂.cons ⟨rfl, fun p => ?_⟩ ih
      rw [Mem, start_of, stop_of]
      simp only [Mem, max_le_iff, le_min_iff]; tauto
    · rw [if_neg ho, List.filter_cons_of_neg ho]; exact ih

/-- **C108**: `gaps_trimmed` lists the gaps that `gaps_untrimmed` lists, in the same order, each restricted to the query. -/
theorem C108_trimmed_gaps {m : NoditMap K V} (h : WF m.iter) {q : Q} (hq : Valid q) :
    ∃ u t, m.gapsUntrimmed q = .ok u ∧ m.gapsTrimmed q = .ok t ∧
      List.Forall₂ (fun a b => ∀ p : I, Mem p a ↔ Mem p b ∧ Mem p q) t u := by
  obtain ⟨gs, h1, h2⟩ := gapsTrimmed_eq (wf_iff_chain.1 h) (valid_iff.1 hq)
  refine ⟨_, _, h1, h2, ?_⟩
  rw [List.forall₂_map_left_iff, List.forall₂_same]
  intro k _ p
  rw [trim, Mem, start_of, stop_of]
  simp only [Mem, max_le_iff, le_min_iff]; tauto

omit [LawfulInterval I K] in
/-- **C108**: the query for everything lists everything, and its ends are `first_key_value` and `last_key_value`. -/
theorem C108_whole_domain {m : NoditMap K V} (h : WF m.iter) :
    ∃ u : Interval I, uu = .ok u ∧ m.overlapping u = .ok m.iter ∧ m.firstKeyValue = m.iter.head? ∧ m.lastKeyValue = m.iter.getLast? ∧
      (m.overlaps u = .ok true ↔ m.isEmpty = false) := by
  have hv : Valid (⟨MIN, MAX⟩ : Interval I) := ⟨MIN, le_refl _, le_max _⟩
  have hf : m.iter.filter (ovl (⟨MIN, MAX⟩ : Interval I)) = m.iter :=
    List.filter_eq_self.2 fun e _ => decide_eq_true ⟨le_max _, min_le _⟩
  have ho : m.overlapping (⟨MIN, MAX⟩ : Interval I) = .ok m.iter := by rw [overlapping_eq_filter h hv, hf]
  refine ⟨⟨MIN, MAX⟩, ?_, ho, rfl, rfl, ?_⟩
  · unfold uu mkChecked
    rw [invalidIntervalPanic_ok (q := (⟨MIN, MAX⟩ : Interval I)) (valid_iff.1 hv)]; rfl
  · obtain ⟨b, b1, b2⟩ := spec_overlaps h hv
    rw [b1, Except.ok.injEq, b2, ← Bool.not_eq_true, (C18_len_first_last h).2.1]
    constructor
    · rintro ⟨e, he, -⟩ hn
      change e ∈ m.iter at he
      rw [hn] at he; simp at he
    · intro hn
      obtain ⟨e, l, hl⟩ := List.exists_cons_of_ne_nil hn
      have he : e ∈ m.iter := by rw [hl]; simp
      obtain ⟨p, hp⟩ := h.1 e he
      exact ⟨e, he, p, hp, min_le _, le_max _⟩

omit [LawfulInterval I K] in
theorem overlapping_infix {l : List (K × V)} (h : Chain l) {q : Q} : l.filter (ovl q) <:+: l := by
  have : l.filter (ovl q) = BTree.range (overlappingComp (start q)) (overlappingComp (stop q)) l := (h.range_eq _ _).symm
  rw [this]
  exact (List.takeWhile_prefix _).isInfix.trans (List.dropWhile_suffix _).isInfix

/-- **C108**: a wider query finds more: what a query finds is a contiguous part of what a wider one finds, and of all entries;
`overlaps` passes to wider queries, `contains_interval` to narrower ones. -/
theorem C108_wider_query {m : NoditMap K V} (h : WF m.iter) {q : Q} {q' : Q'} (hq : Valid q) (hsub : ∀ p : I, Mem p q → Mem p q') :
    (∃ l l', m.overlapping q = .ok l ∧ m.overlapping q' = .ok l' ∧ l <:+: l' ∧ l' <:+: m.iter) ∧
    (m.overlaps q = .ok true → m.overlaps q' = .ok true) ∧
    (m.containsInterval q' = .ok true → m.containsInterval q = .ok true) := by
  have hv' : Valid q' := hq.imp hsub
  have hq1 := valid_iff.1 hq
  have hs := hsub _ ⟨le_refl _, hq1⟩
  have he := hsub _ ⟨hq1, le_refl _⟩
  have hc := wf_iff_chain.1 h
  refine ⟨⟨_, _, overlapping_eq_filter h hq, overlapping_eq_filter h hv', ?_, overlapping_infix hc⟩, ?_, ?_⟩
  · have : m.iter.filter (ovl q) = (m.iter.filter (ovl q')).filter (ovl q) := by
      rw [List.filter_filter]
      refine List.filter_congr fun e _ => ?_
      have h1 := hs.1; have h2 := he.2
      rw [Bool.eq_iff_iff, Bool.and_eq_true]
      simp only [ovl, decide_eq_true_eq]
      constructor
      · rintro ⟨a, b⟩; exact ⟨⟨a, b⟩, by order, by order⟩
      · exact fun h => h.1
    rw [this]
    exact overlapping_infix (hc.filter _)
  · obtain ⟨b, b1, b2⟩ := spec_overlaps h hq
    obtain ⟨b', b1', b2'⟩ := spec_overlaps h hv'
    rw [b1, b1', Except.ok.injEq, Except.ok.injEq, b2, b2']
    rintro ⟨e, he, p, hp, hp'⟩; exact ⟨e, he, p, hp, hsub p hp'⟩
  · obtain ⟨b, b1, b2⟩ := C16_contains_interval h q hq
    obtain ⟨b', b1', b2'⟩ := C16_contains_interval h q' hv'
    rw [b1, b1', Except.ok.injEq, Except.ok.injEq, b2, b2']
    exact fun hn p hp => hn p (hsub p hp)

/-- **C108** for sets: the ways to find out that nothing is in an interval agree. -/
theorem C108_set_nothing_there {s : NoditSet K} (h : WF s.inner.iter) {q : Q} (hq : Valid q) :
    List.TFAE [
      s.overlaps q = .ok false,
      s.overlapping q = .ok [],
      s.removeOverlapping q = .ok (s, []),
      s.cut q = .ok (s, []),
      s.gapsTrimmed q = .ok [ofInterval ⟨start q, stop q⟩],
      ∃ g, s.gapsUntrimmed q = .ok [g] ∧ ∀ p : I, Mem p q → Mem p g,
      ∀ p : I, Mem p q → s.containsPoint p = .ok false] := by
  have t := C108_nothing_there h hq
  obtain ⟨l, mr, mc, out, h1, h2, h3, h4⟩ := C108_found_by_all h hq
  have i2 : s.overlapping q = .ok [] ↔ s.inner.overlapping q = .ok [] := by
    simp only [NoditSet.overlapping, h1, bind, Except.bind, pure, Except.pure, Except.ok.injEq, List.map_eq_nil_iff]
  have i3 : s.removeOverlapping q = .ok (s, []) ↔ s.inner.removeOverlapping q = .ok (s.inner, []) := by
    simp only [NoditSet.removeOverlapping, h2, bind, Except.bind, pure, Except.pure, Except.ok.injEq, Prod.mk.injEq, List.map_eq_nil_iff]
    cases s; simp
  have i4 : s.cut q = .ok (s, []) ↔ s.inner.cut q = .ok (s.inner, []) := by
    simp only [NoditSet.cut, h3, bind, Except.bind, pure, Except.pure, Except.ok.injEq, Prod.mk.injEq, List.map_eq_nil_iff]
    cases s; simp
  tfae_have 1 ↔ 2 := (t.out 0 1).trans i2.symm
  tfae_have 1 ↔ 3 := (t.out 0 2).trans i3.symm
  tfae_have 1 ↔ 4 := (t.out 0 3).trans i4.symm
  tfae_have 1 ↔ 5 := t.out 0 4
  tfae_have 1 ↔ 6 := t.out 0 5
  tfae_have 1 ↔ 7 := t.out 0 6
  tfae_finish

/-- **C108** for sets: the ways to find out that an interval is covered agree, and what `overlapping`, `remove_overlapping` and `cut`
find corresponds. -/
theorem C108_set_everything_there {s : NoditSet K} (h : WF s.inner.iter) {q : Q} (hq : Valid q) :
    List.TFAE [
      s.containsInterval q = .ok true,
      s.gapsUntrimmed q = .ok [],
      s.gapsTrimmed q = .ok [],
      ∀ p : I, Mem p q → s.containsPoint p = .ok true] ∧
    ∃ l sr sc out, s.overlapping q = .ok l ∧ s.removeOverlapping q = .ok (sr, l) ∧ s.cut q = .ok (sc, out) ∧
      List.Forall₂ (fun piece k => ∀ p : I, Mem p piece ↔ Mem p k ∧ Mem p q) out l := by
  have t := C108_everything_there h hq
  constructor
  · tfae_have 1 ↔ 2 := t.out 0 1
    tfae_have 1 ↔ 3 := t.out 0 2
    tfae_have 1 ↔ 4 := t.out 0 3
    tfae_finish
  · obtain ⟨l, mr, mc, out, h1, h2, h3, h4⟩ := C108_found_by_all h hq
    refine ⟨l.map Prod.fst, ⟨mr⟩, ⟨mc⟩, out.map Prod.fst, ?_, ?_, ?_, ?_⟩
    · simp only [NoditSet.overlapping, h1, bind, Except.bind, pure, Except.pure]
    · simp only [NoditSet.removeOverlapping, h2, bind, Except.bind, pure, Except.pure]
    · simp only [NoditSet.cut, h3, bind, Except.bind, pure, Except.pure]
    · rw [List.forall₂_map_left_iff, List.forall₂_map_right_iff]
      exact h4.imp fun _ _ h => h.2

/-! ### Concrete cases -/

/-- the hypotheses are met by the map of `Props/Demo.lean`, with an interval in one of its gaps, one inside three entries, and one with both -/
example : WF Demo.m.iter ∧ Valid (Demo.iv 5 9) ∧ Valid (Demo.iv 11 18) ∧ Valid (Demo.iv 4 18) ∧
    Demo.m.overlaps (Demo.iv 5 9) = .ok false ∧ Demo.m.overlaps (Demo.iv 4 18) = .ok true ∧
    Demo.m.containsInterval (Demo.iv 11 18) = .ok true ∧ Demo.m.containsInterval (Demo.iv 4 18) = .ok false ∧
    Demo.m.gapsUntrimmed (Demo.iv 6 7) = .ok [Demo.iv 5 9] ∧ Demo.m.gapsTrimmed (Demo.iv 6 7) = .ok [Demo.iv 6 7] :=
  ⟨C01_invariant Demo.ops, valid_iff.2 (by decide), valid_iff.2 (by decide), valid_iff.2 (by decide),
    by decide, by decide, by decide, by decide, by decide, by decide⟩
end Nodit
