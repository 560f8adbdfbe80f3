import Verif.Lemmas.Merge
/-!
# Point lookups and gaps on a chain
-/
set_option linter.unusedSectionVars false
set_option linter.unusedSimpArgs false
namespace Nodit
open Spec PointType

section
variable {I K Q V : Type} [PointType I] [IntervalType I K] [IntervalType I Q]
  [LawfulPoint I] {l : List (K × V)}

/-- `g` is a maximal gap, on end points -/
def IsGap (l : List (K × V)) (g : Interval I) : Prop :=
  g.start ≤ g.stop ∧ (∀ e ∈ l, stop e.1 < g.start ∨ g.stop < start e.1) ∧
  (g.start = MIN ∨ ∃ e ∈ l, up (stop e.1) = some g.start) ∧
  (g.stop = MAX ∨ ∃ e ∈ l, up g.stop = some (start e.1))

theorem isGap_iff (hl : ∀ e ∈ l, start e.1 ≤ stop e.1) {g : Interval I} :
    IsGap l g ↔ MaximalRun (fun p => ¬ Covered {e | e ∈ l} p) g := by
  constructor
  · rintro ⟨h1, h2, h3, h4⟩
    refine ⟨⟨g.start, le_refl _, h1⟩, ?_, ?_⟩
    · rintro p ⟨hp1, hp2⟩ ⟨e, he, hq1, hq2⟩
      simp only [start, stop] at hp1 hp2
      rcases h2 e he with h | h <;> order
    · rintro j hj ⟨x, ⟨hx1, hx2⟩, ⟨hx3, hx4⟩⟩ p ⟨hp1, hp2⟩
      simp only [start, stop] at hx1 hx2
      constructor
      · by_contra hlt
        simp only [start, stop] at hlt
        rcases h3 with h3 | ⟨e, he, hup⟩
        · exact hlt (h3 ▸ min_le p)
        · rw [up_eq_some] at hup
          have hpe : p ≤ stop e.1 := le_of_not_gt fun hc => hlt (hup.2 _ hc)
          exact hj (stop e.1) ⟨le_trans hp1 hpe, by order⟩ ⟨e, he, hl e he, le_refl _⟩
      · by_contra hlt
        simp only [start, stop] at hlt
        rcases h4 with h4 | ⟨e, he, hup⟩
        · exact hlt (h4 ▸ le_max p)
        · rw [up_eq_some] at hup
          have hpe : start e.1 ≤ p := hup.2 _ (not_le.1 hlt)
          exact hj (start e.1) ⟨by order, by order⟩ ⟨e, he, le_refl _, hl e he⟩
  · rintro ⟨hv, hunc, hmax⟩
    have h1 := valid_iff.1 hv
    simp only [start, stop] at h1
    have h2 : ∀ e ∈ l, stop e.1 < g.start ∨ g.stop < start e.1 := by
      intro e he
      by_contra hc
      simp only [not_or, not_lt] at hc
      obtain ⟨p, hp1, hp2⟩ := (overlap_iff (a := e.1) (b := g) (hl e he) h1).2 ⟨hc.2, hc.1⟩
      exact hunc p hp2 ⟨e, he, hp1⟩
    refine ⟨h1, h2, ?_, ?_⟩
    · by_cases hm : g.start = MIN
      · exact Or.inl hm
      · right
        obtain ⟨d, hd, hd1, -, hd2⟩ := down_exists (lt_of_le_of_ne (min_le g.start) (Ne.symm hm))
        by_cases hc : Covered {e | e ∈ l} d
        · obtain ⟨e, he, he1, he2⟩ := hc
          refine ⟨e, he, ?_⟩
          rw [up_eq_some_iff_down, hd]
          congr 1
          refine le_antisymm he2 ?_
          rw [← hd2]
          rcases h2 e he with h | h
          · exact h
          · order
        · exfalso
          have := hmax ⟨d, g.stop⟩ (by
            rintro p ⟨hp1, hp2⟩
            simp only [start, stop] at hp1 hp2
            rcases lt_or_ge p g.start with hp | hp
            · rw [hd2] at hp
              rw [le_antisymm hp hp1]; exact hc
            · exact hunc p ⟨hp, hp2⟩) ⟨g.start, ⟨le_refl _, h1⟩, ⟨hd1.le, h1⟩⟩ d
            ⟨le_refl _, by simp only [start, stop]; order⟩
          have := this.1
          simp only [start, stop] at this
          order
    · by_cases hm : g.stop = MAX
      · exact Or.inl hm
      · right
        obtain ⟨d, hd, hd1, -, hd2⟩ := up_exists (lt_of_le_of_ne (le_max g.stop) hm)
        by_cases hc : Covered {e | e ∈ l} d
        · obtain ⟨e, he, he1, he2⟩ := hc
          refine ⟨e, he, ?_⟩
          rw [hd]
          congr 1
          refine le_antisymm ?_ he1
          rw [← hd2]
          rcases h2 e he with h | h
          · order
          · exact h
        · exfalso
          have := hmax ⟨g.start, d⟩ (by
            rintro p ⟨hp1, hp2⟩
            simp only [start, stop] at hp1 hp2
            rcases lt_or_ge g.stop p with hp | hp
            · rw [hd2] at hp
              rw [le_antisymm hp2 hp]; exact hc
            · exact hunc p ⟨hp1, hp⟩) ⟨g.start, ⟨le_refl _, h1⟩, ⟨le_refl _, by simp only [start, stop]; order⟩⟩ d
            ⟨by simp only [start, stop]; order, le_refl _⟩
          have := this.2
          simp only [start, stop] at this
          order

theorem IsGap.unique (hl : ∀ e ∈ l, start e.1 ≤ stop e.1) {g g' : Interval I} (h : IsGap l g) (h' : IsGap l g')
    {p : I} (hp : g.start ≤ p ∧ p ≤ g.stop) (hp' : g'.start ≤ p ∧ p ≤ g'.stop) : g = g' := by
  have hv := h.1; have hv' := h'.1
  rw [isGap_iff hl] at h h'
  have e1 := h.2.2 g' h'.2.1 ⟨p, hp, hp'⟩
  have e2 := h'.2.2 g h.2.1 ⟨p, hp', hp⟩
  have a1 := e1 g'.start ⟨le_refl _, hv'⟩
  have a2 := e1 g'.stop ⟨hv', le_refl _⟩
  have b1 := e2 g.start ⟨le_refl _, hv⟩
  have b2 := e2 g.stop ⟨hv, le_refl _⟩
  obtain ⟨s, t⟩ := g
  obtain ⟨s', t'⟩ := g'
  simp only [Mem, start, stop] at a1 a2 b1 b2
  rw [Interval.mk.injEq]
  constructor <;> order

namespace NoditMap
variable {m : NoditMap K V}

omit [LawfulPoint I] in
theorem upperBound_key (h : Chain m.inner) (p : I) :
    (BTree.upperBound (overlappingComp p) m.inner).key =
      ((m.inner.filter (fun e => decide (start e.1 ≤ p))).getLast?).map Prod.fst := by
  unfold BTree.upperBound
  simp only [h.takeWhile_ne_lt]
  cases hl : (m.inner.filter (fun e => decide (start e.1 ≤ p))).getLast? <;> rfl

omit [LawfulPoint I] in
theorem lowerBound_key (h : Chain m.inner) (p : I) :
    (BTree.lowerBound (overlappingComp p) m.inner).key =
      ((m.inner.filter (fun e => decide (p ≤ stop e.1))).head?).map Prod.fst := by
  unfold BTree.lowerBound
  rw [h.dropWhile_gt]
  rfl

theorem getGapAtRaw_spec (h : Chain m.inner) {p : I} (hp : ∀ e ∈ m.inner, ¬ (start e.1 ≤ p ∧ p ≤ stop e.1)) :
    ∃ g, m.getGapAtRaw p = .ok g ∧ IsGap m.inner g ∧ g.start ≤ p ∧ p ≤ g.stop := by
  have hside : ∀ e ∈ m.inner, (start e.1 ≤ p ↔ stop e.1 < p) := by
    intro e he
    have := hp e he
    have := h.1 e he
    constructor
    · intro h1; by_contra h2; exact (hp e he) ⟨h1, not_lt.1 h2⟩
    · intro h1; order
  -- the left end
  have hleft : ∃ s, (match (BTree.upperBound (overlappingComp p) m.inner).key with
        | none => (pure MIN : Res I)
        | some lower => unwrap (up (stop lower))) = .ok s ∧ s ≤ p ∧
      (∀ e ∈ m.inner, start e.1 ≤ p → stop e.1 < s) ∧ (s = MIN ∨ ∃ e ∈ m.inner, up (stop e.1) = some s) := by
    rw [upperBound_key h]
    cases hl : (m.inner.filter (fun e => decide (start e.1 ≤ p))).getLast? with
    | none =>
      rw [List.getLast?_eq_none_iff, List.filter_eq_nil_iff] at hl
      exact ⟨MIN, rfl, min_le p, fun e he hc => absurd (by simpa using hc) (hl e he), Or.inl rfl⟩
    | some a =>
      have ha : a ∈ m.inner.filter (fun e => decide (start e.1 ≤ p)) := List.mem_of_getLast? hl
      obtain ⟨pre, hpre⟩ := List.getLast?_eq_some_iff.1 hl
      have hch := h.filter (fun e => decide (start e.1 ≤ p))
      rw [hpre, Chain.append] at hch
      have ha' := List.mem_filter.1 ha
      have hap : start a.1 ≤ p := by simpa using ha'.2
      have hlt := (hside a ha'.1).1 hap
      obtain ⟨u, hu, hu1, hu2, hu3⟩ := up_exists hlt
      refine ⟨u, by simp [hu, unwrap], hu2, ?_, Or.inr ⟨a, ha'.1, hu⟩⟩
      intro e he hep
      have hmem : e ∈ m.inner.filter (fun e => decide (start e.1 ≤ p)) :=
        List.mem_filter.2 ⟨he, by simpa using hep⟩
      rw [hpre, List.mem_append, List.mem_singleton] at hmem
      rcases hmem with hmem | rfl
      · have := hch.2.2 e hmem a (by simp)
        have := h.1 a ha'.1
        order
      · exact hu1
  have hright : ∃ s, (match (BTree.lowerBound (overlappingComp p) m.inner).key with
        | none => (pure MAX : Res I)
        | some upper => unwrap (down (start upper))) = .ok s ∧ p ≤ s ∧
      (∀ e ∈ m.inner, ¬ start e.1 ≤ p → s < start e.1) ∧ (s = MAX ∨ ∃ e ∈ m.inner, up s = some (start e.1)) := by
    rw [lowerBound_key h]
    cases hl : (m.inner.filter (fun e => decide (p ≤ stop e.1))).head? with
    | none =>
      rw [List.head?_eq_none_iff, List.filter_eq_nil_iff] at hl
      refine ⟨MAX, rfl, le_max p, fun e he hc => ?_, Or.inl rfl⟩
      rw [hside e he] at hc
      exact absurd (by simpa using hc) (hl e he)
    | some a =>
      obtain ⟨tl, htl⟩ := List.head?_eq_some_iff.1 hl
      have ha : a ∈ m.inner.filter (fun e => decide (p ≤ stop e.1)) := by rw [htl]; simp
      have hch := h.filter (fun e => decide (p ≤ stop e.1))
      rw [htl, Chain.cons] at hch
      have ha' := List.mem_filter.1 ha
      have hap : p ≤ stop a.1 := by simpa using ha'.2
      have hlt : p < start a.1 := not_le.1 fun hc => hp a ha'.1 ⟨hc, hap⟩
      obtain ⟨u, hu, hu1, hu2, hu3⟩ := down_exists hlt
      refine ⟨u, by simp [hu, unwrap], hu2, ?_, Or.inr ⟨a, ha'.1, up_eq_some_iff_down.2 hu⟩⟩
      intro e he hep
      have hmem : e ∈ m.inner.filter (fun e => decide (p ≤ stop e.1)) := by
        refine List.mem_filter.2 ⟨he, ?_⟩
        rw [hside e he] at hep
        simpa using hep
      rw [htl, List.mem_cons] at hmem
      rcases hmem with rfl | hmem
      · exact hu1
      · have := hch.2.1 e hmem
        have := h.1 a ha'.1
        order
  obtain ⟨s, hs, hs1, hs2, hs3⟩ := hleft
  obtain ⟨t, ht, ht1, ht2, ht3⟩ := hright
  refine ⟨⟨s, t⟩, ?_, ⟨?_, ?_, hs3, ht3⟩, hs1, ht1⟩
  · unfold getGapAtRaw
    cases hk1 : (BTree.upperBound (overlappingComp p) m.inner).key <;>
      cases hk2 : (BTree.lowerBound (overlappingComp p) m.inner).key <;>
      simp only [hk1, hk2] at hs ht ⊢ <;> rw [hs] <;> simp only [bind, Except.bind] <;> rw [ht] <;> rfl
  · exact le_trans hs1 ht1
  · intro e he
    by_cases hc : start e.1 ≤ p
    · exact Or.inl (hs2 e he hc)
    · exact Or.inr (ht2 e he hc)

omit [LawfulPoint I] in
theorem find_point (h : Chain m.inner) (p : I) :
    (∃ e, e ∈ m.inner ∧ Mem p e.1 ∧ BTree.find (overlappingComp p) m.inner = some e ∧
      ∀ d ∈ m.inner, Mem p d.1 → d = e) ∨
    ((∀ e ∈ m.inner, ¬ Mem p e.1) ∧ BTree.find (overlappingComp p) m.inner = none) := by
  cases hf : BTree.find (overlappingComp p) m.inner with
  | some e =>
    left
    rw [BTree.find_eq_some (h.search_overlapping p), overlappingComp_eq] at hf
    refine ⟨e, hf.1, hf.2, rfl, fun d hd hdp => ?_⟩
    exact h.eq_of_common hd hf.1 (le_trans hdp.1 hf.2.2) (le_trans hf.2.1 hdp.2)
  | none =>
    right
    rw [BTree.find_eq_none (h.search_overlapping p)] at hf
    simp only [ne_eq, overlappingComp_eq] at hf
    exact ⟨hf, rfl⟩

theorem gapAt_spec (h : Chain m.inner) (p : I) :
    ((∃ e ∈ m.inner, Mem p e.1) ∧ m.gapAt p = .ok none) ∨
    ((∀ e ∈ m.inner, ¬ Mem p e.1) ∧ ∃ g, m.gapAt p = .ok (some g) ∧ IsGap m.inner g ∧ g.start ≤ p ∧ p ≤ g.stop) := by
  unfold gapAt
  rcases find_point h p with ⟨e, he, hp, hf, -⟩ | ⟨hn, hf⟩
  · left; exact ⟨⟨e, he, hp⟩, by simp [hf, pure, Except.pure]⟩
  · right
    obtain ⟨g, hg, hg1, hg2⟩ := getGapAtRaw_spec h hn
    exact ⟨hn, g, by simp [hf, hg, bind, Except.bind, pure, Except.pure], hg1, hg2⟩

theorem getKeyValueAtPoint_spec (h : Chain m.inner) (p : I) :
    (∃ e, e ∈ m.inner ∧ Mem p e.1 ∧ m.getKeyValueAtPoint p = .ok (.ok e) ∧ ∀ d ∈ m.inner, Mem p d.1 → d = e) ∨
    ((∀ e ∈ m.inner, ¬ Mem p e.1) ∧ ∃ g, m.getKeyValueAtPoint p = .ok (.error (ofInterval g)) ∧
      IsGap m.inner g ∧ g.start ≤ p ∧ p ≤ g.stop) := by
  unfold getKeyValueAtPoint
  rcases find_point h p with ⟨e, he, hp, hf, hu⟩ | ⟨hn, hf⟩
  · left; exact ⟨e, he, hp, by simp [hf, pure, Except.pure], hu⟩
  · right
    obtain ⟨g, hg, hg1, hg2⟩ := getGapAtRaw_spec h hn
    exact ⟨hn, g, by simp [hf, hg, bind, Except.bind, pure, Except.pure], hg1, hg2⟩

/-! ### inner gaps -/

theorem mapM_ok {α β : Type} {f : α → Res β} {g : α → β} {xs : List α} (h : ∀ x ∈ xs, f x = .ok (g x)) :
    xs.mapM f = .ok (xs.map g) := by
  induction xs with
  | nil => rfl
  | cons x xs ih =>
    rw [List.mapM_cons, h x (by simp), ih (fun y hy => h y (by simp [hy]))]
    rfl

/-- the interval between two entries -/
def between (w : (K × V) × (K × V)) : Interval I :=
  ⟨(up (stop w.1.1)).getD MIN, (down (start w.2.1)).getD MIN⟩

theorem between_of_lt {w : (K × V) × (K × V)} (h : stop w.1.1 < start w.2.1) :
    up (stop w.1.1) = some (between w).start ∧ down (start w.2.1) = some (between w).stop := by
  obtain ⟨u, hu, -⟩ := up_exists h
  obtain ⟨d, hd, -⟩ := down_exists h
  simp [between, hu, hd]

theorem innerGaps_ok (h : Chain l) :
    innerGaps l = .ok ((((tupleWindows l).map (fun w => (ofInterval (between w) : K)))).filter
      (fun k => InclusiveInterval.isValid k)) := by
  unfold innerGaps
  rw [tupleWindows_map, List.mapM_map, mapM_ok (g := fun w => (ofInterval (between w) : K))]
  · rfl
  · intro w hw
    obtain ⟨h1, h2⟩ := between_of_lt (tupleWindows_rel h.2 hw).1
    simp [unwrap, h1, h2, bind, Except.bind, pure, Except.pure]

variable [LawfulInterval I K]

theorem innerGaps_chain (h : Chain l) : ChainK
    ((((tupleWindows l).map (fun w => (ofInterval (between w) : K)))).filter (fun k => InclusiveInterval.isValid k)) := by
  constructor
  · intro k hk
    have := (List.mem_filter.1 hk).2
    simpa [InclusiveInterval.isValid] using this
  · apply List.Pairwise.filter
    rw [List.pairwise_map]
    refine List.Pairwise.imp_of_mem ?_ (pairwise_tupleWindows h.2)
    intro u w hu hw huw
    have h1 := tupleWindows_rel h.2 hu
    have h2 := tupleWindows_rel h.2 hw
    have e1 := down_eq_some.1 (between_of_lt h1.1).2
    have e2 := up_eq_some.1 (between_of_lt h2.1).1
    have v1 := h.1 _ h1.2.2
    have v2 := h.1 _ h2.2.1
    simp only [start_of, stop_of]
    rcases huw with huw | huw
    · rw [huw] at e1 v1; order
    · order

theorem mem_innerGaps (h : Chain l) {q : Q} {k : K} :
    k ∈ (((tupleWindows (l.filter (ovl q))).map (fun w => (ofInterval (between w) : K)))).filter
        (fun k => InclusiveInterval.isValid k) ↔
      ∃ i, k = ofInterval i ∧ IsGap l i ∧ start q < i.start ∧ i.stop < stop q := by
  have hc := h.filter (ovl q)
  rw [List.mem_filter, List.mem_map]
  constructor
  · rintro ⟨⟨w, hw, rfl⟩, hv⟩
    have hwr := tupleWindows_rel hc.2 hw
    obtain ⟨h1, h2⟩ := between_of_lt hwr.1
    have h1' := up_eq_some.1 h1
    have h2' := down_eq_some.1 h2
    have hv' : (between w).start ≤ (between w).stop := by
      simpa [InclusiveInterval.isValid] using hv
    have hm1 := List.mem_filter.1 hwr.2.1
    have hm2 := List.mem_filter.1 hwr.2.2
    simp only [ovl, decide_eq_true_eq] at hm1 hm2
    refine ⟨between w, rfl, ⟨hv', ?_, Or.inr ⟨w.1, hm1.1, h1⟩, Or.inr ⟨w.2, hm2.1, up_eq_some_iff_down.2 h2⟩⟩,
      by order, by order⟩
    intro e he
    have hve := h.1 e he
    have hv1 := h.1 _ hm1.1
    have hv2 := h.1 _ hm2.1
    by_contra hcon
    simp only [not_or, not_lt] at hcon
    have hne1 : e ≠ w.1 := by rintro rfl; order
    have hne2 : e ≠ w.2 := by rintro rfl; order
    have ha : stop w.1.1 < start e.1 := by
      rcases h.apart he hm1.1 hne1 with h' | h'
      · order
      · exact h'
    have hb : stop e.1 < start w.2.1 := by
      rcases h.apart he hm2.1 hne2 with h' | h'
      · exact h'
      · order
    have hef : e ∈ l.filter (ovl q) := by
      refine List.mem_filter.2 ⟨he, ?_⟩
      simp only [ovl, decide_eq_true_eq]
      constructor <;> order
    obtain ⟨l1, l2, hl⟩ := mem_tupleWindows.1 (show (w.1, w.2) ∈ tupleWindows _ from hw)
    rw [hl] at hef hc
    rw [Chain.append, Chain.cons, Chain.cons] at hc
    simp only [List.mem_append, List.mem_cons] at hef
    rcases hef with hef | rfl | rfl | hef
    · have := hc.2.2 e hef w.1 (by simp); order
    · exact hne1 rfl
    · exact hne2 rfl
    · have := hc.2.1.2.2.2.1 e hef; order
  · rintro ⟨i, rfl, hgap, hi1, hi2⟩
    obtain ⟨hv, hno, hL, hR⟩ := hgap
    obtain ⟨a, ha, hau⟩ : ∃ e ∈ l, up (stop e.1) = some i.start := by
      rcases hL with hL | hL
      · exact absurd (min_le (start q)) (not_le.2 (hL ▸ hi1))
      · exact hL
    obtain ⟨b, hb, hbu⟩ : ∃ e ∈ l, up i.stop = some (start e.1) := by
      rcases hR with hR | hR
      · exact absurd (le_max (stop q)) (not_le.2 (hR ▸ hi2))
      · exact hR
    have hau' := up_eq_some.1 hau
    have hbu' := up_eq_some.1 hbu
    have hva := h.1 a ha
    have hvb := h.1 b hb
    have h1 : start q ≤ stop a.1 := le_of_not_gt fun hlt => by have := hau'.2 _ hlt; order
    have h2 : start b.1 ≤ stop q := hbu'.2 _ hi2
    have hab : stop a.1 < start b.1 := by order
    have hw : (a, b) ∈ tupleWindows (l.filter (ovl q)) := by
      refine mem_tupleWindows_of_adjacent (R := fun a b : K × V => stop a.1 < start b.1) ?_ ?_ hc.2 ?_ ?_ hab ?_
      · intro x hx; exact not_lt.2 (hc.1 x hx)
      · intro x hx y hy hxy; have := hc.1 x hx; have := hc.1 y hy; order
      · refine List.mem_filter.2 ⟨ha, ?_⟩
        simp only [ovl, decide_eq_true_eq]; constructor <;> order
      · refine List.mem_filter.2 ⟨hb, ?_⟩
        simp only [ovl, decide_eq_true_eq]; constructor <;> order
      · rintro c hcm ⟨hc1, hc2⟩
        have hcl := (List.mem_filter.1 hcm).1
        have hvc := h.1 c hcl
        rcases hno c hcl with h' | h'
        · have := hau'.2 _ hc1; order
        · have := hbu'.2 _ h'; order
    have hbt : between (a, b) = i := by
      simp [between, hau, up_eq_some_iff_down.1 hbu]
    exact ⟨⟨(a, b), hw, by rw [hbt]⟩, by simpa [InclusiveInterval.isValid] using hv⟩

/-- everything `gaps_untrimmed` and `gaps_trimmed` compute -/
theorem gaps_parts (h : Chain m.inner) {q : Q} (hq : start q ≤ stop q) :
    ∃ inner, m.overlapping q = .ok (m.inner.filter (ovl q)) ∧ innerGaps (m.inner.filter (ovl q)) = .ok inner ∧
      ChainK inner ∧ ∀ k, k ∈ inner ↔ ∃ i, k = ofInterval i ∧ IsGap m.inner i ∧ start q < i.start ∧ i.stop < stop q :=
  ⟨_, overlapping_ok h hq, innerGaps_ok (h.filter _), innerGaps_chain (h.filter _), fun _ => mem_innerGaps h⟩

omit [LawfulInterval I K] in
theorem gap_meets {i : Interval I} (hi : i.start ≤ i.stop) {q : Q} (hq : start q ≤ stop q) :
    Overlap i q ↔ (i.start ≤ start q ∧ start q ≤ i.stop) ∨ (i.start ≤ stop q ∧ stop q ≤ i.stop) ∨
      (start q < i.start ∧ i.stop < stop q) := by
  rw [overlap_iff (a := i) hi hq]
  simp only [start, stop]
  grind

omit [LawfulInterval I K] in
theorem gap_order (h : Chain m.inner) {g g' : Interval I} (hg : IsGap m.inner g) (hg' : IsGap m.inner g')
    (hlt : g.start < g'.start) : g.stop < g'.start := by
  by_contra hc
  have := hg'.1
  have := hg.unique h.1 hg' (p := g'.start) ⟨by order, by order⟩ ⟨le_refl _, by order⟩
  subst this; order

theorem gapsUntrimmed_spec (h : Chain m.inner) {q : Q} (hq : start q ≤ stop q) :
    ∃ gs, m.gapsUntrimmed q = .ok gs ∧ ChainK gs ∧
      ∀ k, k ∈ gs ↔ ∃ i, k = ofInterval i ∧ IsGap m.inner i ∧ Overlap i q := by
  obtain ⟨inner, ho, hin, hch, hmem⟩ := gaps_parts h hq
  have hgap : ∀ i, IsGap m.inner i → i.start ≤ i.stop := fun i hi => hi.1
  unfold gapsUntrimmed
  simp only [invalidIntervalPanic_ok hq, bind, Except.bind, pure, Except.pure, ho, hin]
  rcases gapAt_spec h (start q) with ⟨⟨e0, he0, hp0⟩, hs⟩ | ⟨hsn, s, hs, hsg, hs1, hs2⟩ <;>
  rcases gapAt_spec h (stop q) with ⟨⟨e1, he1, hp1⟩, ht⟩ | ⟨htn, t, ht, htg, ht1, ht2⟩ <;>
  simp only [hs, ht]
  · refine ⟨_, rfl, ?_, ?_⟩
    · simpa using hch
    · intro k
      simp only [Option.map_none, Option.toList_none, List.nil_append, List.append_nil, hmem]
      refine exists_congr fun i => and_congr_right fun _ => and_congr_right fun hi => ?_
      rw [gap_meets hi.1 hq]
      constructor
      · intro h'; exact Or.inr (Or.inr h')
      · rintro (h' | h' | h')
        · rcases hi.2.1 e0 he0 with h'' | h''
          · have := hp0.2; order
          · have := hp0.1; order
        · rcases hi.2.1 e1 he1 with h'' | h''
          · have := hp1.2; order
          · have := hp1.1; order
        · exact h'
  · refine ⟨_, rfl, ?_, ?_⟩
    · simp only [Option.map_none, Option.toList_none, List.nil_append, Option.map_some, Option.toList_some]
      refine ⟨?_, ?_⟩
      · intro k hk
        rcases List.mem_append.1 hk with hk | hk
        · exact hch.1 k hk
        · rw [List.mem_singleton] at hk; subst hk; simpa using htg.1
      · rw [List.pairwise_append]
        refine ⟨hch.2, by simp, ?_⟩
        intro a ha b hb
        rw [List.mem_singleton] at hb; subst hb
        obtain ⟨i, rfl, hi, hi1, hi2⟩ := (hmem a).1 ha
        simp only [start_of, stop_of]
        refine gap_order h hi htg ?_
        by_contra hc
        have := hi.unique h.1 htg (p := i.start) ⟨le_refl _, hi.1⟩ ⟨by order, by have := hi.1; order⟩
        subst this; order
    · intro k
      simp only [Option.map_none, Option.toList_none, List.nil_append, Option.map_some, Option.toList_some,
        List.mem_append, List.mem_singleton, hmem]
      constructor
      · rintro (⟨i, rfl, hi, h1, h2⟩ | rfl)
        · exact ⟨i, rfl, hi, (gap_meets hi.1 hq).2 (Or.inr (Or.inr ⟨h1, h2⟩))⟩
        · exact ⟨t, rfl, htg, (gap_meets htg.1 hq).2 (Or.inr (Or.inl ⟨ht1, ht2⟩))⟩
      · rintro ⟨i, rfl, hi, hov⟩
        rcases (gap_meets hi.1 hq).1 hov with h' | h' | h'
        · exfalso
          rcases hi.2.1 e0 he0 with h'' | h''
          · have := hp0.2; order
          · have := hp0.1; order
        · right; rw [hi.unique h.1 htg h' ⟨ht1, ht2⟩]
        · left; exact ⟨i, rfl, hi, h'⟩
  · refine ⟨_, rfl, ?_, ?_⟩
    · simp only [Option.map_none, Option.toList_none, List.append_nil, Option.map_some, Option.toList_some]
      refine ⟨?_, ?_⟩
      · intro k hk
        rcases List.mem_append.1 hk with hk | hk
        · rw [List.mem_singleton] at hk; subst hk; simpa using hsg.1
        · exact hch.1 k hk
      · rw [List.pairwise_append]
        refine ⟨by simp, hch.2, ?_⟩
        intro b hb a ha
        rw [List.mem_singleton] at hb; subst hb
        obtain ⟨i, rfl, hi, hi1, hi2⟩ := (hmem a).1 ha
        simp only [start_of, stop_of]
        exact gap_order h hsg hi (by order)
    · intro k
      simp only [Option.map_none, Option.toList_none, List.append_nil, Option.map_some, Option.toList_some,
        List.mem_append, List.mem_singleton, hmem]
      constructor
      · rintro (rfl | ⟨i, rfl, hi, h1, h2⟩)
        · exact ⟨s, rfl, hsg, (gap_meets hsg.1 hq).2 (Or.inl ⟨hs1, hs2⟩)⟩
        · exact ⟨i, rfl, hi, (gap_meets hi.1 hq).2 (Or.inr (Or.inr ⟨h1, h2⟩))⟩
      · rintro ⟨i, rfl, hi, hov⟩
        rcases (gap_meets hi.1 hq).1 hov with h' | h' | h'
        · left; rw [hi.unique h.1 hsg h' ⟨hs1, hs2⟩]
        · exfalso
          rcases hi.2.1 e1 he1 with h'' | h''
          · have := hp1.2; order
          · have := hp1.1; order
        · right; exact ⟨i, rfl, hi, h'⟩
  · by_cases hst : s.start = t.start
    · have : s = t := hsg.unique h.1 htg (p := s.start) ⟨le_refl _, hsg.1⟩ ⟨by order, by have := htg.1; order⟩
      subst this
      have hempty : inner = [] := by
        rw [List.eq_nil_iff_forall_not_mem]
        intro k hk
        obtain ⟨i, rfl, hi, h1, h2⟩ := (hmem k).1 hk
        have := hi.unique h.1 hsg (p := i.start) ⟨le_refl _, hi.1⟩ ⟨by order, by have := hi.1; order⟩
        subst this; order
      simp only [hst, if_true, hempty]
      refine ⟨_, rfl, ?_, ?_⟩
      · simp [ChainK, hsg.1]
      · intro k
        simp only [Option.map_none, Option.toList_none, List.append_nil, Option.map_some, Option.toList_some,
          List.mem_singleton]
        constructor
        · rintro rfl
          exact ⟨s, rfl, hsg, (gap_meets hsg.1 hq).2 (Or.inl ⟨hs1, hs2⟩)⟩
        · rintro ⟨i, rfl, hi, hov⟩
          rcases (gap_meets hi.1 hq).1 hov with h' | h' | h'
          · rw [hi.unique h.1 hsg h' ⟨hs1, hs2⟩]
          · rw [hi.unique h.1 hsg h' ⟨ht1, ht2⟩]
          · have := hi.unique h.1 hsg (p := i.start) ⟨le_refl _, hi.1⟩ ⟨by order, by have := hi.1; order⟩
            subst this; order
    · simp only [hst, if_false]
      have hlt : s.start < t.start := by
        rcases lt_or_gt_of_ne hst with h' | h'
        · exact h'
        · exfalso
          have := gap_order h htg hsg h'
          order
      refine ⟨_, rfl, ?_, ?_⟩
      · simp only [Option.map_some, Option.toList_some]
        refine ⟨?_, ?_⟩
        · intro k hk
          rcases List.mem_append.1 hk with hk | hk
          · rcases List.mem_append.1 hk with hk | hk
            · rw [List.mem_singleton] at hk; subst hk; simpa using hsg.1
            · exact hch.1 k hk
          · rw [List.mem_singleton] at hk; subst hk; simpa using htg.1
        · rw [List.append_assoc, List.singleton_append, List.pairwise_cons, List.pairwise_append]
          refine ⟨?_, hch.2, by simp, ?_⟩
          · intro a ha
            rcases List.mem_append.1 ha with ha | ha
            · obtain ⟨i, rfl, hi, hi1, hi2⟩ := (hmem a).1 ha
              simp only [start_of, stop_of]
              exact gap_order h hsg hi (by order)
            · rw [List.mem_singleton] at ha; subst ha
              simp only [start_of, stop_of]
              exact gap_order h hsg htg hlt
          · intro a ha b hb
            rw [List.mem_singleton] at hb; subst hb
            obtain ⟨i, rfl, hi, hi1, hi2⟩ := (hmem a).1 ha
            simp only [start_of, stop_of]
            refine gap_order h hi htg ?_
            by_contra hc
            have := hi.unique h.1 htg (p := i.start) ⟨le_refl _, hi.1⟩ ⟨by order, by have := hi.1; order⟩
            subst this; order
      · intro k
        simp only [Option.map_some, Option.toList_some,
          List.mem_append, List.mem_singleton, hmem]
        constructor
        · rintro ((rfl | ⟨i, rfl, hi, h1, h2⟩) | rfl)
          · exact ⟨s, rfl, hsg, (gap_meets hsg.1 hq).2 (Or.inl ⟨hs1, hs2⟩)⟩
          · exact ⟨i, rfl, hi, (gap_meets hi.1 hq).2 (Or.inr (Or.inr ⟨h1, h2⟩))⟩
          · exact ⟨t, rfl, htg, (gap_meets htg.1 hq).2 (Or.inr (Or.inl ⟨ht1, ht2⟩))⟩
        · rintro ⟨i, rfl, hi, hov⟩
          rcases (gap_meets hi.1 hq).1 hov with h' | h' | h'
          · left; left; rw [hi.unique h.1 hsg h' ⟨hs1, hs2⟩]
          · right; rw [hi.unique h.1 htg h' ⟨ht1, ht2⟩]
          · left; right; exact ⟨i, rfl, hi, h'⟩

/-- the part of a gap inside the query -/
def trim (q : Q) (k : K) : K := ofInterval ⟨max (start k) (start q), min (stop k) (stop q)⟩

theorem gapsTrimmed_eq (h : Chain m.inner) {q : Q} (hq : start q ≤ stop q) :
    ∃ gs, m.gapsUntrimmed q = .ok gs ∧ m.gapsTrimmed q = .ok (gs.map (trim q)) := by
  obtain ⟨inner, ho, hin, hch, hmem⟩ := gaps_parts h hq
  have hinner : inner.map (trim q) = inner := by
    conv_rhs => rw [← List.map_id inner]
    apply List.map_congr_left
    intro k hk
    obtain ⟨i, rfl, hi, h1, h2⟩ := (hmem k).1 hk
    simp only [trim, start_of, stop_of, id_eq, max_eq_left h1.le, min_eq_left h2.le]
  unfold gapsUntrimmed gapsTrimmed
  simp only [invalidIntervalPanic_ok hq, bind, Except.bind, pure, Except.pure, ho, hin]
  rcases gapAt_spec h (start q) with ⟨⟨e0, he0, hp0⟩, hs⟩ | ⟨hsn, s, hs, hsg, hs1, hs2⟩ <;>
  rcases gapAt_spec h (stop q) with ⟨⟨e1, he1, hp1⟩, ht⟩ | ⟨htn, t, ht, htg, ht1, ht2⟩ <;>
  simp only [hs, ht]
  · exact ⟨_, rfl, by simp [hinner]⟩
  · refine ⟨_, rfl, ?_⟩
    have : start q ≤ t.start := by
      rcases htg.2.1 e0 he0 with h' | h'
      · have := hp0.2; order
      · have := hp0.1; order
    simp [hinner, trim, max_eq_left this, min_eq_right ht2]
  · refine ⟨_, rfl, ?_⟩
    have : s.stop ≤ stop q := by
      rcases hsg.2.1 e1 he1 with h' | h'
      · have := hp1.2; order
      · have := hp1.1; order
    simp [hinner, trim, min_eq_left this, max_eq_right hs1]
  · by_cases hst : s.start = t.start
    · have : s = t := hsg.unique h.1 htg (p := s.start) ⟨le_refl _, hsg.1⟩ ⟨by order, by have := htg.1; order⟩
      subst this
      refine ⟨_, rfl, ?_⟩
      simp [hinner, trim, max_eq_right hs1, min_eq_right ht2]
    · have hlt : s.start < t.start := by
        rcases lt_or_gt_of_ne hst with h' | h'
        · exact h'
        · exfalso
          have := gap_order h htg hsg h'
          order
      have h2 := gap_order h hsg htg hlt
      have e1 : s.stop ≤ stop q := by order
      have e2 : start q ≤ t.start := by order
      refine ⟨_, rfl, ?_⟩
      simp [hst, hinner, trim, max_eq_right hs1, min_eq_right ht2, min_eq_left e1, max_eq_left e2]

theorem gapsTrimmed_spec (h : Chain m.inner) {q : Q} (hq : start q ≤ stop q) :
    ∃ gs, m.gapsTrimmed q = .ok gs ∧ ChainK gs ∧
      ∀ k, k ∈ gs ↔ ∃ i, k = ofInterval i ∧ ∃ g, IsGap m.inner g ∧ Describes i (fun p => Mem p g ∧ Mem p q) := by
  obtain ⟨gs, h1, h2, h3⟩ := gapsUntrimmed_spec h hq
  obtain ⟨gs', h1', h4⟩ := gapsTrimmed_eq h hq
  rw [h1] at h1'
  obtain rfl : gs = gs' := by simpa using h1'
  have hov : ∀ k ∈ gs, start k ≤ stop k ∧ start k ≤ stop q ∧ start q ≤ stop k := by
    intro k hk
    obtain ⟨i, rfl, hi, ho⟩ := (h3 k).1 hk
    rw [overlap_iff (a := i) hi.1 hq] at ho
    simpa using ⟨hi.1, ho.1, ho.2⟩
  have hdesc : ∀ i g : Interval I, IsGap m.inner g →
      (Describes i (fun p => Mem p g ∧ Mem p q) ↔
        Overlap g q ∧ i = ⟨max g.start (start q), min g.stop (stop q)⟩) := by
    intro i g hg
    have := hg.1
    by_cases hogq : Overlap g q
    · simp only [hogq, true_and]
      rw [overlap_iff (a := g) hg.1 hq] at hogq
      simp only [start, stop] at hogq
      apply describes_of
      · simp [hq, hg.1, hogq.1, hogq.2]
      · intro p; simp only [Mem, max_le_iff, le_min_iff, start, stop]; tauto
    · simp only [hogq, false_and, iff_false]
      exact describes_false fun p hp => hogq ⟨p, hp⟩
  refine ⟨_, h4, ⟨?_, ?_⟩, ?_⟩
  · intro k hk
    obtain ⟨k', hk', rfl⟩ := List.mem_map.1 hk
    obtain ⟨a1, a2, a3⟩ := hov k' hk'
    simp [trim, a1, a2, a3, hq]
  · rw [List.pairwise_map]
    refine List.Pairwise.imp ?_ h2.2
    intro a b hab
    simp only [trim, start_of, stop_of]
    exact lt_of_le_of_lt (min_le_left _ _) (lt_of_lt_of_le hab (le_max_left _ _))
  · intro k
    rw [List.mem_map]
    constructor
    · rintro ⟨k', hk', rfl⟩
      obtain ⟨g, rfl, hg, ho⟩ := (h3 k').1 hk'
      exact ⟨_, rfl, g, hg, (hdesc _ g hg).2 ⟨ho, by simp⟩⟩
    · rintro ⟨i, rfl, g, hg, hd⟩
      obtain ⟨ho, rfl⟩ := (hdesc i g hg).1 hd
      exact ⟨ofInterval g, (h3 _).2 ⟨g, rfl, hg, ho⟩, by simp [trim]⟩

theorem containsInterval_spec (h : Chain m.inner) {q : Q} (hq : start q ≤ stop q) :
    ∃ b, m.containsInterval q = .ok b ∧ (b = true ↔ ∀ p, Mem p q → Covered {e | e ∈ m.inner} p) := by
  obtain ⟨gs, h1, h2, h3⟩ := gapsUntrimmed_spec h hq
  refine ⟨gs.head?.isNone, ?_, ?_⟩
  · unfold containsInterval
    simp [invalidIntervalPanic_ok hq, h1, bind, Except.bind, pure, Except.pure]
  · rw [Option.isNone_iff_eq_none, List.head?_eq_none_iff, List.eq_nil_iff_forall_not_mem]
    constructor
    · intro hn p hp
      by_contra hc
      obtain ⟨g, -, hg, hg1, hg2⟩ := getGapAtRaw_spec h (p := p) (fun e he hpe => hc ⟨e, he, hpe⟩)
      exact hn (ofInterval g) ((h3 _).2 ⟨g, rfl, hg, p, ⟨hg1, hg2⟩, hp⟩)
    · intro hall k hk
      obtain ⟨g, rfl, hg, p, hp1, hp2⟩ := (h3 k).1 hk
      obtain ⟨e, he, hpe⟩ := hall p hp2
      have := hpe.1; have := hpe.2; have := hp1.1; have := hp1.2
      simp only [start, stop] at *
      rcases hg.2.1 e he with h' | h' <;> order
end NoditMap
end
end Nodit
