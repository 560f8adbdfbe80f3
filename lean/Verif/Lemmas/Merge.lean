import Verif.Lemmas.Cut
/-!
# Lookups and merging inserts on a chain
-/
set_option linter.unusedSectionVars false
set_option linter.unusedSimpArgs false
namespace Nodit
open Spec PointType

section
variable {I K Q V : Type} [PointType I] [IntervalType I K] [IntervalType I Q]
  [LawfulPoint I] [LawfulInterval I K] {l : List (K × V)}

/-- the `match` computing the merged interval in `insert_merge_with_comps` -/
def mergedOf (k : K) (ms me : Option K) : K :=
  match ms, me with
    | some ms, some me => ofInterval { start := start ms, stop := stop me }
    | some ms, none => ofInterval { start := start ms, stop := stop k }
    | none, some me => ofInterval { start := start k, stop := stop me }
    | none, none => k

omit [LawfulPoint I] [LawfulInterval I K] in
theorem strictlyInside_iff {a : Q} {k : K} (ha : start a ≤ stop a) (hk : start k ≤ stop k) :
    StrictlyInside a k ↔ start k < start a ∧ stop a < stop k := by
  unfold StrictlyInside
  simp only [forall_mem_lt ha, forall_mem_gt ha]
  constructor
  · rintro ⟨⟨p, h1, h2⟩, ⟨x, h3, h4⟩⟩
    exact ⟨lt_of_le_of_lt h1.1 h2, lt_of_lt_of_le h4 h3.2⟩
  · rintro ⟨h1, h2⟩
    exact ⟨⟨start k, ⟨le_refl _, hk⟩, h1⟩, ⟨stop k, ⟨hk, le_refl _⟩, h2⟩⟩

omit [LawfulPoint I] in
theorem merge_core (h : Chain l) {k : K} (hk : start k ≤ stop k) (R : K × V → Bool)
    (hR1 : ∀ e ∈ l, ovl k e = true → R e = true)
    (hR2 : ∀ e ∈ l, R e = true →
      (∀ z, ¬ (stop k < z ∧ z < start e.1)) ∧ (∀ z, ¬ (stop e.1 < z ∧ z < start k)))
    (ms me : Option K)
    (hms : ∀ a, ms = some a → (∃ e ∈ l, R e = true ∧ e.1 = a) ∧ start a ≤ start k ∧
      ∀ e ∈ l, R e = true → start a ≤ start e.1)
    (hms' : ms = none → ∀ e ∈ l, R e = true → start k < start e.1)
    (hme : ∀ a, me = some a → (∃ e ∈ l, R e = true ∧ e.1 = a) ∧ stop k ≤ stop a ∧
      ∀ e ∈ l, R e = true → stop e.1 ≤ stop a)
    (hme' : me = none → ∀ e ∈ l, R e = true → stop e.1 < stop k) :
    start (mergedOf k ms me) ≤ stop (mergedOf k ms me) ∧
    (∀ e ∈ l, R e = false → ovl (mergedOf k ms me) e = false) ∧
    MergedKey k {e | e ∈ l ∧ R e = true} (mergedOf k ms me) := by
  have hs : start (mergedOf k ms me) = match ms with | some a => start a | none => start k := by
    cases ms <;> cases me <;> simp [mergedOf]
  have he : stop (mergedOf k ms me) = match me with | some a => stop a | none => stop k := by
    cases ms <;> cases me <;> simp [mergedOf]
  have hs1 : start (mergedOf k ms me) ≤ start k := by
    rw [hs]; cases ms with
    | none => exact le_refl _
    | some a => exact (hms a rfl).2.1
  have he1 : stop k ≤ stop (mergedOf k ms me) := by
    rw [he]; cases me with
    | none => exact le_refl _
    | some a => exact (hme a rfl).2.1
  have hs2 : ∀ e ∈ l, R e = true → start (mergedOf k ms me) ≤ start e.1 := by
    intro e hel hre
    rw [hs]; cases ms with
    | none => exact (hms' rfl e hel hre).le
    | some a => exact (hms a rfl).2.2 e hel hre
  have he2 : ∀ e ∈ l, R e = true → stop e.1 ≤ stop (mergedOf k ms me) := by
    intro e hel hre
    rw [he]; cases me with
    | none => exact (hme' rfl e hel hre).le
    | some a => exact (hme a rfl).2.2 e hel hre
  have hmem : ∀ p, Mem p (mergedOf k ms me) ↔ Mem p k ∨ ∃ e ∈ l, R e = true ∧ Mem p e.1 := by
    intro p
    constructor
    · rintro ⟨h1, h2⟩
      rcases lt_or_ge p (start k) with h3 | h3
      · right
        rw [hs] at h1
        cases ms with
        | none => simp only at h1; order
        | some a =>
          simp only at h1
          obtain ⟨⟨e, hel, hre, rfl⟩, -, -⟩ := hms a rfl
          refine ⟨e, hel, hre, h1, ?_⟩
          exact le_of_not_gt fun hlt => (hR2 e hel hre).2 p ⟨hlt, h3⟩
      · rcases lt_or_ge (stop k) p with h4 | h4
        · right
          rw [he] at h2
          cases me with
          | none => simp only at h2; order
          | some a =>
            simp only at h2
            obtain ⟨⟨e, hel, hre, rfl⟩, -, -⟩ := hme a rfl
            refine ⟨e, hel, hre, ?_, h2⟩
            exact le_of_not_gt fun hlt => (hR2 e hel hre).1 p ⟨h4, hlt⟩
        · exact Or.inl ⟨h3, h4⟩
    · rintro (⟨h1, h2⟩ | ⟨e, hel, hre, h1, h2⟩)
      · exact ⟨le_trans hs1 h1, le_trans h2 he1⟩
      · exact ⟨le_trans (hs2 e hel hre) h1, le_trans h2 (he2 e hel hre)⟩
  have hv : start (mergedOf k ms me) ≤ stop (mergedOf k ms me) := le_trans hs1 (le_trans hk he1)
  refine ⟨hv, ?_, ?_, ?_, ?_⟩
  · intro e hel hre
    by_contra hov
    rw [Bool.not_eq_false, ovl_iff hv (h.1 e hel)] at hov
    obtain ⟨p, hp1, hp2⟩ := hov
    rcases (hmem p).1 hp2 with hp | ⟨f, hfl, hrf, hp⟩
    · rw [hR1 e hel ((ovl_iff hk (h.1 e hel)).2 ⟨p, hp1, hp⟩)] at hre; cases hre
    · have : e = f := h.eq_of_common hel hfl (le_trans hp1.1 hp.2) (le_trans hp.1 hp1.2)
      subst this; rw [hrf] at hre; cases hre
  · intro p
    rw [hmem]
    simp only [Set.mem_ofPred_eq, and_assoc]
  · intro hall
    have hall' : ∀ e ∈ l, R e = true → start k < start e.1 ∧ stop e.1 < stop k := fun e hel hre =>
      (strictlyInside_iff (h.1 e hel) hk).1 (hall e ⟨hel, hre⟩)
    cases ms with
    | some a =>
      obtain ⟨⟨e, hel, hre, rfl⟩, h2, -⟩ := hms a rfl
      exact absurd (hall' e hel hre).1 (not_lt.2 h2)
    | none =>
      cases me with
      | some a =>
        obtain ⟨⟨e, hel, hre, rfl⟩, h2, -⟩ := hme a rfl
        exact absurd (hall' e hel hre).2 (not_lt.2 h2)
      | none => rfl
  · rintro ⟨e, ⟨hel, hre⟩, hns⟩
    rw [strictlyInside_iff (h.1 e hel) hk] at hns
    cases ms with
    | some a => cases me <;> exact ⟨_, rfl⟩
    | none =>
      cases me with
      | some a => exact ⟨_, rfl⟩
      | none => exact absurd ⟨hms' rfl e hel hre, hme' rfl e hel hre⟩ hns

namespace NoditMap
variable {m : NoditMap K V}

omit [LawfulPoint I] [LawfulInterval I K] in
/-- the entries after a merging insert -/
theorem insert_after_filter (h : Chain m.inner) (R : K × V → Bool) {r : K} {v : V}
    (hr : start r ≤ stop r) (hno : ∀ e ∈ m.inner, R e = false → ovl r e = false) :
    Chain (insertUnchecked ⟨m.inner.filter (fun e => !R e)⟩ r v).inner ∧
    ∀ x, x ∈ (insertUnchecked ⟨m.inner.filter (fun e => !R e)⟩ r v).inner ↔
      (x ∈ m.inner ∧ ¬ R x = true) ∨ x = (r, v) := by
  have := insertUnchecked_spec (m := ⟨m.inner.filter (fun e => !R e)⟩) (k := r) (v := v) (h.filter _) hr
    (fun e he => hno e (List.mem_filter.1 he).1 (by simpa using (List.mem_filter.1 he).2))
  refine ⟨this.1, fun x => ?_⟩
  rw [this.2]
  simp [List.mem_filter]

omit [LawfulPoint I] in
theorem insertMergeOverlapping_spec (h : Chain m.inner) {k : K} (hk : start k ≤ stop k) (v : V) :
    ∃ m' r, m.insertMergeOverlapping k v = .ok (m', r) ∧ Chain m'.inner ∧
      MergedKey k {e | e ∈ m.inner ∧ ovl k e = true} r ∧
      ∀ x, x ∈ m'.inner ↔ (x ∈ m.inner ∧ ¬ ovl k x = true) ∨ x = (r, v) := by
  unfold insertMergeOverlapping insertMergeWithComps
  simp only [invalidIntervalPanic_ok hk, bind, Except.bind, pure, Except.pure, removeOverlapping_ok h hk]
  set ms := (BTree.find (overlappingComp (start k)) m.inner).map Prod.fst with hms
  set me := (BTree.find (overlappingComp (stop k)) m.inner).map Prod.fst with hme
  have hf := fun p e => BTree.find_eq_some (h.search_overlapping p) (e := e)
  have hn := fun p => BTree.find_eq_none (h.search_overlapping p)
  simp only [overlappingComp_eq] at hf
  simp only [ne_eq, overlappingComp_eq] at hn
  obtain ⟨c1, c2, c3⟩ := merge_core h hk (ovl k) (fun _ _ h => h) (by
      intro e hel hov
      simp only [ovl, decide_eq_true_eq] at hov
      refine ⟨fun z hz => ?_, fun z hz => ?_⟩ <;> order) ms me
    (by
      intro a ha
      rw [hms, Option.map_eq_some_iff] at ha
      obtain ⟨e, he, rfl⟩ := ha
      rw [hf] at he
      have hov : ovl k e = true := by simp only [ovl, decide_eq_true_eq]; constructor <;> order
      refine ⟨⟨e, he.1, hov, rfl⟩, he.2.1, ?_⟩
      intro f hfl hovf
      simp only [ovl, decide_eq_true_eq] at hovf
      by_contra hlt
      have := h.1 f hfl
      have := h.eq_of_common he.1 hfl (by order) (by order)
      subst this; exact hlt (le_refl _))
    (by
      intro hnone e hel hov
      simp only [ovl, decide_eq_true_eq] at hov
      rw [hms, Option.map_eq_none_iff, hn] at hnone
      have := hnone e hel
      by_contra hlt
      exact this ⟨not_lt.1 hlt, hov.2⟩)
    (by
      intro a ha
      rw [hme, Option.map_eq_some_iff] at ha
      obtain ⟨e, he, rfl⟩ := ha
      rw [hf] at he
      have hov : ovl k e = true := by simp only [ovl, decide_eq_true_eq]; constructor <;> order
      refine ⟨⟨e, he.1, hov, rfl⟩, he.2.2, ?_⟩
      intro f hfl hovf
      simp only [ovl, decide_eq_true_eq] at hovf
      by_contra hlt
      have := h.1 f hfl
      have := h.eq_of_common he.1 hfl (by order) (by order)
      subst this; exact hlt (le_refl _))
    (by
      intro hnone e hel hov
      simp only [ovl, decide_eq_true_eq] at hov
      rw [hme, Option.map_eq_none_iff, hn] at hnone
      have := hnone e hel
      by_contra hlt
      exact this ⟨hov.1, not_lt.1 hlt⟩)
  obtain ⟨d1, d2⟩ := insert_after_filter (v := v) h (ovl k) c1 c2
  exact ⟨_, _, rfl, d1, c3, d2⟩

/-- `e` touches `k`, on end points -/
def tch (k : K) (e : K × V) : Bool := up (stop e.1) == some (start k) || up (stop k) == some (start e.1)

omit [LawfulInterval I K] in
theorem tch_iff {k : K} {e : K × V} (hk : start k ≤ stop k) (he : start e.1 ≤ stop e.1) :
    tch k e = true ↔ Touch e.1 k := by
  rw [touch_iff he hk]; simp [tch]

omit [LawfulInterval I K] in
/-- the last two removals of `insert_merge_touching*` -/
theorem remove_touching (h : Chain l) (k : K) :
    BTree.remove (touchingEndComp (stop k)) (BTree.remove (touchingStartComp (start k)) l) =
      l.filter (fun e => !tch k e) := by
  rw [BTree.remove_eq (h.search_touchingStart _), BTree.remove_eq ((h.filter _).search_touchingEnd _),
    List.filter_filter]
  apply List.filter_congr
  intro x hx
  rw [Bool.eq_iff_iff]
  simp only [bne_iff_ne, ne_eq, touchingStartComp_eq, touchingEndComp_eq, tch, Bool.and_eq_true,
    Bool.not_eq_true', Bool.or_eq_false_iff, beq_eq_false_iff_ne]
  tauto

theorem insertMergeTouchingOrOverlapping_spec (h : Chain m.inner) {k : K} (hk : start k ≤ stop k) (v : V) :
    ∃ m' r, m.insertMergeTouchingOrOverlapping k v = .ok (m', r) ∧ Chain m'.inner ∧
      MergedKey k {e | e ∈ m.inner ∧ (tch k e || ovl k e) = true} r ∧
      ∀ x, x ∈ m'.inner ↔ (x ∈ m.inner ∧ ¬ (tch k x || ovl k x) = true) ∨ x = (r, v) := by
  unfold insertMergeTouchingOrOverlapping insertMergeWithComps
  simp only [invalidIntervalPanic_ok hk, bind, Except.bind, pure, Except.pure, removeOverlapping_ok h hk,
    remove_touching (h.filter _), List.filter_filter]
  set ms := ((BTree.find (touchingStartComp (start k)) m.inner).map Prod.fst).or
      ((BTree.find (overlappingComp (start k)) m.inner).map Prod.fst) with hms
  set me := ((BTree.find (touchingEndComp (stop k)) m.inner).map Prod.fst).or
      ((BTree.find (overlappingComp (stop k)) m.inner).map Prod.fst) with hme
  have hf := fun p e => BTree.find_eq_some (h.search_overlapping p) (e := e)
  have hn := fun p => BTree.find_eq_none (h.search_overlapping p)
  have hfs := fun e => BTree.find_eq_some (h.search_touchingStart (start k)) (e := e)
  have hns := BTree.find_eq_none (h.search_touchingStart (start k))
  have hfe := fun e => BTree.find_eq_some (h.search_touchingEnd (stop k)) (e := e)
  have hne := BTree.find_eq_none (h.search_touchingEnd (stop k))
  simp only [overlappingComp_eq, touchingStartComp_eq, touchingEndComp_eq] at hf hfs hfe
  simp only [ne_eq, overlappingComp_eq, touchingStartComp_eq, touchingEndComp_eq] at hn hns hne
  have hR : ∀ e : K × V, (tch k e || ovl k e) = true ↔
      ((up (stop e.1) = some (start k) ∨ up (stop k) = some (start e.1)) ∨
        (start e.1 ≤ stop k ∧ start k ≤ stop e.1)) := by
    intro e; simp [tch, ovl]
  obtain ⟨c1, c2, c3⟩ := merge_core h hk (fun e => tch k e || ovl k e) (fun _ _ h => by simp [h]) (by
      intro e hel hov
      rw [hR] at hov
      simp only [up_eq_some] at hov
      have := h.1 e hel
      refine ⟨fun z hz => ?_, fun z hz => ?_⟩
      · rcases hov with (⟨h1, h2⟩ | ⟨h1, h2⟩) | ⟨h1, h2⟩
        · order
        · have := h2 z hz.1; order
        · order
      · rcases hov with (⟨h1, h2⟩ | ⟨h1, h2⟩) | ⟨h1, h2⟩
        · have := h2 z hz.1; order
        · order
        · order) ms me
    (by
      intro a ha
      simp only [hR]
      cases hts : BTree.find (touchingStartComp (start k)) m.inner with
      | some e =>
        rw [hms, hts] at ha
        simp only [Option.map_some, Option.some_or, Option.some.injEq] at ha
        subst ha
        rw [hfs] at hts
        refine ⟨⟨e, hts.1, Or.inl (Or.inl hts.2), rfl⟩, ?_, ?_⟩
        · have := (up_eq_some.1 hts.2).1; have := h.1 e hts.1; order
        · intro f hfl hov
          by_contra hlt
          have h1 := h.1 f hfl
          have h2 := h.1 e hts.1
          have hne : f ≠ e := by rintro rfl; exact hlt (le_refl _)
          have := (up_eq_some.1 hts.2).1
          simp only [up_eq_some] at hov
          rcases h.apart hfl hts.1 hne with h3 | h3
          · rcases hov with (h4 | h4) | h4
            · have := h4.2 _ h3; order
            · order
            · order
          · order
      | none =>
        rw [hms, hts] at ha
        simp only [Option.map_none, Option.none_or] at ha
        rw [Option.map_eq_some_iff] at ha
        obtain ⟨e, he, rfl⟩ := ha
        rw [hf] at he
        refine ⟨⟨e, he.1, Or.inr ⟨by order, he.2.2⟩, rfl⟩, he.2.1, ?_⟩
        intro f hfl hovf
        rw [hns] at hts
        have := hts f hfl
        have h1 := h.1 f hfl
        have h2 := h.1 e he.1
        simp only [this, false_or, up_eq_some] at hovf
        by_contra hlt
        have hne : f ≠ e := by rintro rfl; exact hlt (le_refl _)
        rcases h.apart hfl he.1 hne with h3 | h3
        · rcases hovf with h4 | h4 <;> order
        · order)
    (by
      intro hnone e hel hov
      rw [hR] at hov
      rw [hms, Option.or_eq_none_iff, Option.map_eq_none_iff, Option.map_eq_none_iff, hns, hn] at hnone
      have h1 := hnone.1 e hel
      have h2 := hnone.2 e hel
      simp only [h1, false_or, up_eq_some] at hov
      by_contra hlt
      rcases hov with h4 | h4
      · order
      · exact h2 ⟨not_lt.1 hlt, h4.2⟩)
    (by
      intro a ha
      simp only [hR]
      cases hts : BTree.find (touchingEndComp (stop k)) m.inner with
      | some e =>
        rw [hme, hts] at ha
        simp only [Option.map_some, Option.some_or, Option.some.injEq] at ha
        subst ha
        rw [hfe] at hts
        refine ⟨⟨e, hts.1, Or.inl (Or.inr hts.2), rfl⟩, ?_, ?_⟩
        · have := (up_eq_some.1 hts.2).1; have := h.1 e hts.1; order
        · intro f hfl hov
          by_contra hlt
          have h1 := h.1 f hfl
          have h2 := h.1 e hts.1
          have hne : f ≠ e := by rintro rfl; exact hlt (le_refl _)
          have := (up_eq_some.1 hts.2).1
          simp only [up_eq_some] at hov
          rcases h.apart hfl hts.1 hne with h3 | h3
          · order
          · rcases hov with (h4 | h4) | h4
            · order
            · have := h4.2 _ this; order
            · order
      | none =>
        rw [hme, hts] at ha
        simp only [Option.map_none, Option.none_or] at ha
        rw [Option.map_eq_some_iff] at ha
        obtain ⟨e, he, rfl⟩ := ha
        rw [hf] at he
        refine ⟨⟨e, he.1, Or.inr ⟨he.2.1, by order⟩, rfl⟩, he.2.2, ?_⟩
        intro f hfl hovf
        rw [hne] at hts
        have := hts f hfl
        have h1 := h.1 f hfl
        have h2 := h.1 e he.1
        simp only [this, or_false, up_eq_some] at hovf
        by_contra hlt
        have hne : f ≠ e := by rintro rfl; exact hlt (le_refl _)
        rcases h.apart hfl he.1 hne with h3 | h3
        · order
        · rcases hovf with h4 | h4 <;> order)
    (by
      intro hnone e hel hov
      rw [hR] at hov
      rw [hme, Option.or_eq_none_iff, Option.map_eq_none_iff, Option.map_eq_none_iff, hne, hn] at hnone
      have h1 := hnone.1 e hel
      have h2 := hnone.2 e hel
      simp only [h1, or_false, up_eq_some] at hov
      by_contra hlt
      rcases hov with h4 | h4
      · order
      · exact h2 ⟨h4.1, not_lt.1 hlt⟩)
  obtain ⟨d1, d2⟩ := insert_after_filter (v := v) h _ c1 c2
  have hfilter : m.inner.filter (fun e => !tch k e && !ovl k e) =
      m.inner.filter (fun e => !(tch k e || ovl k e)) := by
    apply List.filter_congr; intro x _; simp
  rw [hfilter]
  exact ⟨_, _, rfl, d1, c3, d2⟩

theorem touch_core (h : Chain l) {k : K} (hk : start k ≤ stop k) (hno : ∀ e ∈ l, ovl k e = false)
    (g : K × V → Bool) :
    let ms := ((BTree.find (touchingStartComp (start k)) l).filter g).map Prod.fst
    let me := ((BTree.find (touchingEndComp (stop k)) l).filter g).map Prod.fst
    start (mergedOf k ms me) ≤ stop (mergedOf k ms me) ∧
    (∀ e ∈ l, (tch k e && g e) = false → ovl (mergedOf k ms me) e = false) ∧
    MergedKey k {e | e ∈ l ∧ (tch k e && g e) = true} (mergedOf k ms me) := by
  intro ms me
  have hfs := fun e => BTree.find_eq_some (h.search_touchingStart (start k)) (e := e)
  have hns := BTree.find_eq_none (h.search_touchingStart (start k))
  have hfe := fun e => BTree.find_eq_some (h.search_touchingEnd (stop k)) (e := e)
  have hne := BTree.find_eq_none (h.search_touchingEnd (stop k))
  simp only [touchingStartComp_eq, touchingEndComp_eq] at hfs hfe
  simp only [ne_eq, touchingStartComp_eq, touchingEndComp_eq] at hns hne
  have hms1 : ∀ a, ms = some a ↔ ∃ e ∈ l, up (stop e.1) = some (start k) ∧ g e = true ∧ e.1 = a := by
    intro a
    simp only [ms, Option.map_eq_some_iff, Option.filter_eq_some_iff, hfs]
    constructor
    · rintro ⟨e, ⟨⟨h1, h2⟩, h3⟩, h4⟩; exact ⟨e, h1, h2, h3, h4⟩
    · rintro ⟨e, h1, h2, h3, h4⟩; exact ⟨e, ⟨⟨h1, h2⟩, h3⟩, h4⟩
  have hme1 : ∀ a, me = some a ↔ ∃ e ∈ l, up (stop k) = some (start e.1) ∧ g e = true ∧ e.1 = a := by
    intro a
    simp only [me, Option.map_eq_some_iff, Option.filter_eq_some_iff, hfe]
    constructor
    · rintro ⟨e, ⟨⟨h1, h2⟩, h3⟩, h4⟩; exact ⟨e, h1, h2, h3, h4⟩
    · rintro ⟨e, h1, h2, h3, h4⟩; exact ⟨e, ⟨⟨h1, h2⟩, h3⟩, h4⟩
  have hR : ∀ e : K × V, (tch k e && g e) = true ↔
      ((up (stop e.1) = some (start k) ∨ up (stop k) = some (start e.1)) ∧ g e = true) := by
    intro e; simp [tch]
  refine merge_core h hk (fun e => tch k e && g e) (fun e he h => by rw [hno e he] at h; cases h) (by
      intro e hel hov
      rw [hR] at hov
      simp only [up_eq_some] at hov
      have := h.1 e hel
      refine ⟨fun z hz => ?_, fun z hz => ?_⟩
      · rcases hov with ⟨(⟨h1, h2⟩ | ⟨h1, h2⟩), _⟩
        · order
        · have := h2 z hz.1; order
      · rcases hov with ⟨(⟨h1, h2⟩ | ⟨h1, h2⟩), _⟩
        · have := h2 z hz.1; order
        · order) ms me ?_ ?_ ?_ ?_
  · intro a ha
    obtain ⟨e, hel, hup, hg, rfl⟩ := (hms1 a).1 ha
    have h1 := h.1 e hel
    simp only [hR]
    refine ⟨⟨e, hel, ⟨Or.inl hup, hg⟩, rfl⟩, ?_, ?_⟩
    · have := (up_eq_some.1 hup).1; order
    · rintro f hfl ⟨hov, -⟩
      by_contra hlt
      have h2 := h.1 f hfl
      have hne : f ≠ e := by rintro rfl; exact hlt (le_refl _)
      have := (up_eq_some.1 hup).1
      simp only [up_eq_some] at hov
      rcases h.apart hfl hel hne with h3 | h3
      · rcases hov with h4 | h4
        · have := h4.2 _ h3; order
        · order
      · order
  · intro hnone e hel hov
    rw [hR] at hov
    have h1 := h.1 e hel
    rcases hov with ⟨hup | hup, hg⟩
    · have := (hms1 e.1).2 ⟨e, hel, hup, hg, rfl⟩
      rw [hnone] at this; cases this
    · have := (up_eq_some.1 hup).1; order
  · intro a ha
    obtain ⟨e, hel, hup, hg, rfl⟩ := (hme1 a).1 ha
    have h1 := h.1 e hel
    simp only [hR]
    refine ⟨⟨e, hel, ⟨Or.inr hup, hg⟩, rfl⟩, ?_, ?_⟩
    · have := (up_eq_some.1 hup).1; order
    · rintro f hfl ⟨hov, -⟩
      by_contra hlt
      have h2 := h.1 f hfl
      have hne : f ≠ e := by rintro rfl; exact hlt (le_refl _)
      have := (up_eq_some.1 hup).1
      simp only [up_eq_some] at hov
      rcases h.apart hfl hel hne with h3 | h3
      · order
      · rcases hov with h4 | h4
        · order
        · have := h4.2 _ this; order
  · intro hnone e hel hov
    rw [hR] at hov
    have h1 := h.1 e hel
    rcases hov with ⟨hup | hup, hg⟩
    · have := (up_eq_some.1 hup).1; order
    · have := (hme1 e.1).2 ⟨e, hel, hup, hg, rfl⟩
      rw [hnone] at this; cases this

omit [LawfulPoint I] [LawfulInterval I K] in
theorem any_ovl_iff (h : Chain m.inner) {q : Q} (hq : start q ≤ stop q) :
    m.inner.any (ovl q) = true ↔ ∃ e ∈ m.inner, Overlap e.1 q := by
  rw [List.any_eq_true]
  exact exists_congr fun e => and_congr_right fun he => ovl_iff hq (h.1 e he)

omit [LawfulInterval I K] in
theorem insertMergeTouching_err (h : Chain m.inner) {k : K} (hk : start k ≤ stop k) (v : V)
    (ho : m.inner.any (ovl k) = true) : m.insertMergeTouching k v = .ok (m, .error ⟨v⟩) := by
  unfold insertMergeTouching
  simp [invalidIntervalPanic_ok hk, overlaps_ok h hk, ho, bind, Except.bind, pure, Except.pure]

theorem insertMergeTouching_spec (h : Chain m.inner) {k : K} (hk : start k ≤ stop k) (v : V)
    (ho : m.inner.any (ovl k) = false) :
    ∃ m' r, m.insertMergeTouching k v = .ok (m', .ok r) ∧ Chain m'.inner ∧
      MergedKey k {e | e ∈ m.inner ∧ tch k e = true} r ∧
      ∀ x, x ∈ m'.inner ↔ (x ∈ m.inner ∧ ¬ tch k x = true) ∨ x = (r, v) := by
  have hno : ∀ e ∈ m.inner, ovl k e = false := by simpa using ho
  have hf : m.inner.filter (fun e => !ovl k e) = m.inner := by
    rw [List.filter_eq_self]; intro e he; simp [hno e he]
  unfold insertMergeTouching insertMergeWithComps
  simp only [invalidIntervalPanic_ok hk, bind, Except.bind, pure, Except.pure, overlaps_ok h hk, ho,
    Bool.false_eq_true, if_false, removeOverlapping_ok h hk, hf, remove_touching h]
  obtain ⟨c1, c2, c3⟩ := touch_core h hk hno (fun _ => true)
  have ht : ∀ o : Option (K × V), o.filter (fun _ => true) = o := fun o => by cases o <;> rfl
  simp only [ht, Bool.and_true] at c1 c2 c3
  obtain ⟨d1, d2⟩ := insert_after_filter (v := v) h (tch k) c1 c2
  exact ⟨_, _, rfl, d1, c3, d2⟩

section
variable [BEq V]

omit [LawfulInterval I K] in
theorem removeStartEq (h : Chain m.inner) (k : K) (v : V) :
    (if (getStartEq k m v).isSome then
      (⟨BTree.remove (touchingStartComp (start k)) m.inner⟩ : NoditMap K V) else m) =
    ⟨m.inner.filter (fun e => !(up (stop e.1) == some (start k) && e.2 == v))⟩ := by
  have hfs := fun e => BTree.find_eq_some (h.search_touchingStart (start k)) (e := e)
  simp only [touchingStartComp_eq] at hfs
  have hsome : (getStartEq k m v).isSome = true ↔
      ∃ e ∈ m.inner, up (stop e.1) = some (start k) ∧ (e.2 == v) = true := by
    rw [Option.isSome_iff_exists]
    simp only [getStartEq, Option.map_eq_some_iff, Option.filter_eq_some_iff, hfs]
    constructor
    · rintro ⟨_, e, ⟨⟨h1, h2⟩, h3⟩, h4⟩; exact ⟨e, h1, h2, h3⟩
    · rintro ⟨e, h1, h2, h3⟩; exact ⟨_, e, ⟨⟨h1, h2⟩, h3⟩, rfl⟩
  split_ifs with hc
  · obtain ⟨e, he, hup, hv⟩ := hsome.1 hc
    rw [BTree.remove_eq (h.search_touchingStart _)]
    congr 1
    apply List.filter_congr
    intro x hx
    rw [Bool.eq_iff_iff]
    simp only [bne_iff_ne, ne_eq, touchingStartComp_eq, Bool.not_eq_true', Bool.and_eq_false_iff,
      beq_eq_false_iff_ne]
    constructor
    · intro h'; exact Or.inl h'
    · rintro (h' | h')
      · exact h'
      · intro hup'
        have : x = e := by
          by_contra hne
          have h1 := h.1 x hx
          have h2 := h.1 e he
          rw [up_eq_some] at hup hup'
          rcases h.apart hx he hne with h3 | h3
          · have := hup'.2 _ h3; order
          · have := hup.2 _ h3; order
        subst this; rw [hv] at h'; cases h'
  · have : m.inner.filter (fun e => !(up (stop e.1) == some (start k) && e.2 == v)) = m.inner := by
      rw [List.filter_eq_self]
      intro x hx
      simp only [Bool.not_eq_true', Bool.and_eq_false_iff, beq_eq_false_iff_ne]
      by_contra hcon
      simp only [not_or, Bool.not_eq_false, not_not] at hcon
      exact hc (hsome.2 ⟨x, hx, hcon.1, hcon.2⟩)
    rw [this]

omit [LawfulInterval I K] in
theorem removeEndEq (h : Chain m.inner) (k : K) (v : V) :
    (if (getEndEq k m v).isSome then
      (⟨BTree.remove (touchingEndComp (stop k)) m.inner⟩ : NoditMap K V) else m) =
    ⟨m.inner.filter (fun e => !(up (stop k) == some (start e.1) && e.2 == v))⟩ := by
  have hfs := fun e => BTree.find_eq_some (h.search_touchingEnd (stop k)) (e := e)
  simp only [touchingEndComp_eq] at hfs
  have hsome : (getEndEq k m v).isSome = true ↔
      ∃ e ∈ m.inner, up (stop k) = some (start e.1) ∧ (e.2 == v) = true := by
    rw [Option.isSome_iff_exists]
    simp only [getEndEq, Option.map_eq_some_iff, Option.filter_eq_some_iff, hfs]
    constructor
    · rintro ⟨_, e, ⟨⟨h1, h2⟩, h3⟩, h4⟩; exact ⟨e, h1, h2, h3⟩
    · rintro ⟨e, h1, h2, h3⟩; exact ⟨_, e, ⟨⟨h1, h2⟩, h3⟩, rfl⟩
  split_ifs with hc
  · obtain ⟨e, he, hup, hv⟩ := hsome.1 hc
    rw [BTree.remove_eq (h.search_touchingEnd _)]
    congr 1
    apply List.filter_congr
    intro x hx
    rw [Bool.eq_iff_iff]
    simp only [bne_iff_ne, ne_eq, touchingEndComp_eq, Bool.not_eq_true', Bool.and_eq_false_iff,
      beq_eq_false_iff_ne]
    constructor
    · intro h'; exact Or.inl h'
    · rintro (h' | h')
      · exact h'
      · intro hup'
        have : x = e := by
          rw [hup] at hup'
          have h0 : start e.1 = start x.1 := Option.some.inj hup'
          have h1 := h.1 x hx
          have h2 := h.1 e he
          exact h.eq_of_common hx he (by order) (by order)
        subst this; rw [hv] at h'; cases h'
  · have : m.inner.filter (fun e => !(up (stop k) == some (start e.1) && e.2 == v)) = m.inner := by
      rw [List.filter_eq_self]
      intro x hx
      simp only [Bool.not_eq_true', Bool.and_eq_false_iff, beq_eq_false_iff_ne]
      by_contra hcon
      simp only [not_or, Bool.not_eq_false, not_not] at hcon
      exact hc (hsome.2 ⟨x, hx, hcon.1, hcon.2⟩)
    rw [this]

omit [LawfulInterval I K] in
theorem insertMergeTouchingIfValuesEqual_err (h : Chain m.inner) {k : K} (hk : start k ≤ stop k) (v : V)
    (ho : m.inner.any (ovl k) = true) :
    m.insertMergeTouchingIfValuesEqual k v = .ok (m, .error ⟨v⟩) := by
  unfold insertMergeTouchingIfValuesEqual
  simp [invalidIntervalPanic_ok hk, overlaps_ok h hk, ho, bind, Except.bind, pure, Except.pure]

theorem insertMergeTouchingIfValuesEqual_spec (h : Chain m.inner) {k : K} (hk : start k ≤ stop k) (v : V)
    (ho : m.inner.any (ovl k) = false) :
    ∃ m' r, m.insertMergeTouchingIfValuesEqual k v = .ok (m', .ok r) ∧ Chain m'.inner ∧
      MergedKey k {e | e ∈ m.inner ∧ (tch k e && e.2 == v) = true} r ∧
      ∀ x, x ∈ m'.inner ↔ (x ∈ m.inner ∧ ¬ (tch k x && x.2 == v) = true) ∨ x = (r, v) := by
  have hno : ∀ e ∈ m.inner, ovl k e = false := by simpa using ho
  have hf : m.inner.filter (fun e => !ovl k e) = m.inner := by
    rw [List.filter_eq_self]; intro e he; simp [hno e he]
  unfold insertMergeTouchingIfValuesEqual insertMergeWithComps
  simp only [invalidIntervalPanic_ok hk, bind, Except.bind, pure, Except.pure, overlaps_ok h hk, ho,
    Bool.false_eq_true, if_false, removeOverlapping_ok h hk, hf]
  have e0 : (⟨m.inner⟩ : NoditMap K V) = m := rfl
  rw [removeStartEq (m := ⟨m.inner⟩) h, removeEndEq (m := ⟨m.inner.filter _⟩) (h.filter _), List.filter_filter]
  obtain ⟨c1, c2, c3⟩ := touch_core h hk hno (fun e => e.2 == v)
  obtain ⟨d1, d2⟩ := insert_after_filter (v := v) h _ c1 c2
  have hfilter : m.inner.filter (fun e => !(up (stop k) == some (start e.1) && e.2 == v) &&
        !(up (stop e.1) == some (start k) && e.2 == v)) =
      m.inner.filter (fun e => !(tch k e && e.2 == v)) := by
    apply List.filter_congr; intro x _
    cases (x.2 == v) <;> simp [tch, Bool.and_comm]
  rw [hfilter]
  exact ⟨_, _, rfl, d1, c3, d2⟩
end

omit [LawfulPoint I] [LawfulInterval I K] in
theorem insertStrict_err (h : Chain m.inner) {k : K} (hk : start k ≤ stop k) (v : V)
    (ho : m.inner.any (ovl k) = true) : m.insertStrict k v = .ok (m, .error ⟨v⟩) := by
  unfold insertStrict
  simp [invalidIntervalPanic_ok hk, overlaps_ok h hk, ho, bind, Except.bind, pure, Except.pure]

omit [LawfulPoint I] [LawfulInterval I K] in
theorem insertStrict_spec (h : Chain m.inner) {k : K} (hk : start k ≤ stop k) (v : V)
    (ho : m.inner.any (ovl k) = false) :
    ∃ m', m.insertStrict k v = .ok (m', .ok ()) ∧ m' = m.insertUnchecked k v ∧ Chain m'.inner ∧
      ∀ x, x ∈ m'.inner ↔ x ∈ m.inner ∨ x = (k, v) := by
  have hno : ∀ e ∈ m.inner, ovl k e = false := by simpa using ho
  refine ⟨m.insertUnchecked k v, ?_, rfl, insertUnchecked_spec h hk hno⟩
  unfold insertStrict
  simp [invalidIntervalPanic_ok hk, overlaps_ok h hk, ho, bind, Except.bind, pure, Except.pure]

/-- nothing that `cut(q)` leaves overlaps `q` -/
theorem cut_no_ovl {q : Q} (h : Chain m.inner) (hq : start q ≤ stop q) :
    ∀ x ∈ m.inner.flatMap (cutOut q), ovl q x = false := by
  intro x hx
  obtain ⟨e, he, hxe⟩ := List.mem_flatMap.1 hx
  have hce := cutOut_chain hq (h.1 e he)
  have hvx := hce.1.1 x hxe
  rw [← Bool.not_eq_true, ovl_iff hq hvx]
  rcases (mem_cutOut hq (h.1 e he)).1 hxe with ⟨rfl, hno⟩ | ⟨ho, i, rfl, hd | hd⟩
  · exact hno
  · rintro ⟨p, hp1, hp2⟩
    have : Mem p i := by simpa [Mem, start, stop] using hp1
    exact lt_irrefl _ (((hd.2 p).1 this).2 p hp2)
  · rintro ⟨p, hp1, hp2⟩
    have : Mem p i := by simpa [Mem, start, stop] using hp1
    exact lt_irrefl _ (((hd.2 p).1 this).2 p hp2)

theorem insertOverwrite_spec (h : Chain m.inner) {k : K} (hk : start k ≤ stop k) (v : V) :
    ∃ mc out m', m.cut k = .ok (mc, out) ∧ m.insertOverwrite k v = .ok (m', out) ∧
      mc.insertStrict k v = .ok (m', .ok ()) ∧ Chain m'.inner ∧
      ∀ x, x ∈ m'.inner ↔ x ∈ mc.inner ∨ x = (k, v) := by
  obtain ⟨mc, out, hcut, hc1, -, -, -⟩ := cut_spec h hk
  have hno := cut_no_ovl h hk
  have hcut' := hcut
  rw [cut_ok h hk] at hcut'
  simp only [Except.ok.injEq, Prod.mk.injEq] at hcut'
  obtain ⟨rfl, rfl⟩ := hcut'
  obtain ⟨m', hm', rfl, h1, h2⟩ := insertStrict_spec hc1 hk v (by rw [List.any_eq_false]; intro x hx; simp [hno x hx])
  refine ⟨_, _, _, hcut, ?_, hm', h1, h2⟩
  unfold insertOverwrite
  rw [invalidIntervalPanic_ok hk, hcut]
  rfl
end NoditMap
end
end Nodit
