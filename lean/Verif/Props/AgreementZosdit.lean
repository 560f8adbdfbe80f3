import Verif.Props.ZosditExact
/-!
# C110: the queries of a `ZosditMap` agree with each other

Different calls answering the same question give the same answer, after any history of calls; where the code departs from its
documentation (`get_last_value_at_point` and `cut` can miss entries, see C63, C65) the statements say in which direction.
-/
set_option linter.unusedSectionVars false
namespace Nodit
open Spec PointType ZosditMap

variable {I K Q Q' V : Type} [PointType I] [IntervalType I K] [IntervalType I Q] [IntervalType I Q'] [LawfulPoint I] [LawfulInterval I K]

/-- **C110**: `is_zero_overlap(q)` says about the whole map what one sees on the entries that `overlapping(q)` lists; if nothing is
listed it is true. -/
theorem C110_zero_overlap_of_listed (ops : List (ZOp I K V)) {q : Q} (hq : Valid q) :
    ∃ l b, (after ops).overlapping q = .ok l ∧ (after ops).isZeroOverlap q = .ok b ∧
      (b = true ↔ ∀ e ∈ l, ZeroOverlap e.1 q) ∧ (l = [] → b = true) := by
  classical
  obtain ⟨b, h1, h2⟩ := C38_is_zero_overlap ops hq
  have key : b = true ↔ ∀ e ∈ (after ops).iter.filter (fun e => Overlap e.1 q), ZeroOverlap e.1 q := by
    rw [h2]
    refine ⟨fun h e he => h e (List.mem_filter.1 he).1, fun h e he => ?_⟩
    by_cases ho : Overlap e.1 q
    · exact h e (List.mem_filter.2 ⟨he, by simpa using ho⟩)
    · rw [zeroOverlap_iff ((good_after ops).inv.flat.1 e he) (valid_iff.1 hq)]
      rw [overlap_iff ((good_after ops).inv.flat.1 e he) (valid_iff.1 hq)] at ho
      by_contra hc
      exact ho ⟨by by_contra h; exact hc (Or.inr (le_of_lt (not_le.1 h))), by by_contra h; exact hc (Or.inl (le_of_lt (not_le.1 h)))⟩
  refine ⟨_, b, C44_overlapping ops hq, h1, key, fun hl => key.2 ?_⟩
  rw [hl]; simp

/-- **C110**: `is_zero_overlap` foretells `insert_strict_back`: true exactly if the insert succeeds, false exactly if it hands the value
back and changes nothing. -/
theorem C110_zero_overlap_foretells_insert (ops : List (ZOp I K V)) {k : K} (hk : Valid k) (v : V) (pick : Nat) :
    ((after ops).isZeroOverlap k = .ok true ↔ ∃ m', (after ops).insertStrictBack k v pick = .ok (m', .ok ())) ∧
    ((after ops).isZeroOverlap k = .ok false ↔ (after ops).insertStrictBack k v pick = .ok (after ops, .error ⟨v⟩)) := by
  obtain ⟨b, h1, h2⟩ := C38_is_zero_overlap ops hk
  rw [h1]
  rcases insert_exact (good_after ops) hk v pick with ⟨⟨e, he, hz⟩, h3⟩ | ⟨h, m', h3, -⟩
  · have hb : b = false := by
      rw [← Bool.not_eq_true, h2]; exact fun hc => hz (hc e he)
    rw [h3, hb]; simp
  · have hb : b = true := h2.2 h
    rw [h3, hb]; simp

/-- the interval of just one point -/
theorem mem_point {p x : I} : Mem x (⟨p, p⟩ : Interval I) ↔ x = p :=
  ⟨fun h => le_antisymm h.2 h.1, fun h => h ▸ ⟨le_refl _, le_refl _⟩⟩

/-- **C110**: what `get_last_value_at_point(p)` finds is the value of the last entry that `overlapping` lists for the interval of just
that point, and `remove_last_value_at_point(p)` hands out the same; if nothing is listed there, nothing is found; and if one of the
listed entries goes on above `p`, or no entry of the map does, then something is found. -/
theorem C110_point_lookup (ops : List (ZOp I K V)) (p : I) :
    ∃ l m' r, (after ops).overlapping (⟨p, p⟩ : Interval I) = .ok l ∧ (after ops).getLastValueAtPoint p = r ∧
      (after ops).removeLastValueAtPoint p = .ok (m', r) ∧
      (∀ v, r = some v → ∃ k, l.getLast? = some (k, v)) ∧ (l = [] → r = none) ∧
      (l ≠ [] → ((∃ e ∈ l, ∃ x, Mem x e.1 ∧ p < x) ∨ ∀ e ∈ (after ops).iter, ∀ x, Mem x e.1 → x ≤ p) → r ≠ none) := by
  classical
  have hv : Valid (⟨p, p⟩ : Interval I) := ⟨p, mem_point.2 rfl⟩
  have hov : ∀ e : K × V, Overlap e.1 (⟨p, p⟩ : Interval I) ↔ Mem p e.1 := fun e =>
    ⟨fun ⟨x, h1, h2⟩ => mem_point.1 h2 ▸ h1, fun h => ⟨p, h, mem_point.2 rfl⟩⟩
  have hl := C44_overlapping ops hv
  obtain ⟨hnone, hsome⟩ := C63_get_last_value_exact ops p
  have hrem : ∃ m', (after ops).removeLastValueAtPoint p = .ok (m', (after ops).getLastValueAtPoint p) := by
    rcases C41_remove_last_value ops p with ⟨h1, h2⟩ | ⟨v, m', l1, k, l2, h1, h2, -⟩
    · exact ⟨_, by rw [h1, h2]⟩
    · exact ⟨_, by rw [h1, h2]⟩
  obtain ⟨m', hm'⟩ := hrem
  refine ⟨_, m', _, hl, rfl, hm', ?_, ?_, ?_⟩
  · intro v hvv
    obtain ⟨-, l1, k, l2, h1, h2, h3⟩ := (hsome v).1 hvv
    refine ⟨k, ?_⟩
    have h4 : l2.filter (fun e => decide (Overlap e.1 (⟨p, p⟩ : Interval I))) = [] :=
      List.filter_eq_nil_iff.2 fun e he => by simpa [hov] using h3 e he
    rw [h1, List.filter_append, List.filter_cons_of_pos (by exact decide_eq_true ((hov (k, v)).2 h2)), h4]
    simp
  · intro hn
    rw [hnone]
    refine Or.inl fun e he hp => ?_
    rw [List.filter_eq_nil_iff] at hn
    exact hn e he (by simpa [hov] using hp)
  · intro hne h hr
    have hnf := hnone.1 hr
    rcases hnf with hnf | ⟨⟨e, he, x, hx, hlt⟩, hnf⟩
    · refine hne (List.filter_eq_nil_iff.2 fun e he => by simpa [hov] using hnf e he)
    · rcases h with ⟨d, hd, y, hy, hlt'⟩ | h
      · obtain ⟨hd1, hd2⟩ := List.mem_filter.1 hd
        exact absurd (hnf d hd1 ((hov d).1 (by simpa using hd2)) y hy) (not_le.2 hlt')
      · exact absurd (h e he x hx) (not_le.2 hlt)

/-- **C110**: `cut(q)` either misses (hands nothing back and changes nothing), or hands back one piece for each entry that
`overlapping(q)` lists, in the same order, with its value and exactly its points inside `q`, and nothing is left that `overlapping(q)`
would list. -/
theorem C110_cut_what_is_listed (ops : List (ZOp I K V)) {q : Q} (hq : Valid q) :
    ∃ l m' returned, (after ops).overlapping q = .ok l ∧ (after ops).cut q = .ok (m', returned) ∧
      ((returned = [] ∧ m' = after ops) ∨
        (List.Forall₂ (fun piece e => piece.2 = e.2 ∧ ∀ p : I, Mem p piece.1 ↔ Mem p e.1 ∧ Mem p q) returned l ∧
          m'.overlapping q = .ok [])) := by
  classical
  have hl := C44_overlapping ops hq
  rcases cut_exact (good_after ops) hq with ⟨-, h2⟩ | ⟨-, m', r, h2, h3, hg, -⟩
  · exact ⟨_, _, _, hl, h2, Or.inl ⟨rfl, rfl⟩⟩
  · refine ⟨_, m', r, hl, h2, Or.inr ⟨?_, ?_⟩⟩
    · clear h2 hl hg
      generalize (after ops).iter = l at h3
      generalize m'.iter = left at h3
      induction h3 with
      | nil => exact List.Forall₂.nil
      | @cons e l left returned left' returned' hc _ ih =>
        obtain ⟨hp, -, -⟩ := hc
        rcases hp with ⟨hn, rfl⟩ | ⟨i, ⟨⟨x, hx⟩, hi⟩, rfl⟩
        · rw [List.filter_cons_of_neg (by simpa using fun ⟨x, h⟩ => hn x h)]; exact ih
        · rw [List.filter_cons_of_pos (by simpa using ⟨x, (hi x).1 hx⟩), List.singleton_append]
          refine List.Forall₂.cons ⟨rfl, fun p => ?_⟩ ih
          refine Iff.trans ?_ (hi p)
          rw [Mem, start_of, stop_of]; rfl
    · rw [overlapping_ok hg.inv (valid_iff.1 hq)]
      congr 1
      rw [List.filter_eq_nil_iff]
      have : ∀ e ∈ m'.iter, ¬ Overlap e.1 q := by
        clear h2 hl hg
        generalize (after ops).iter = l at h3
        generalize m'.iter = left at h3
        induction h3 with
        | nil => simp
        | @cons e l left returned left' returned' hc _ ih =>
          obtain ⟨-, h1, h2⟩ := hc
          intro d hd
          rcases List.mem_append.1 hd with hd | hd
          · by_cases ho : Overlap e.1 q
            · obtain ⟨b, a, rfl, hb, ha⟩ := h2 ho
              rintro ⟨x, hx, hxq⟩
              rcases List.mem_append.1 hd with hd | hd
              · rcases hb with ⟨-, rfl⟩ | ⟨i, ⟨-, hi⟩, rfl⟩
                · simp at hd
                · rw [List.mem_singleton] at hd; subst hd
                  rw [Mem, start_of, stop_of] at hx
                  exact lt_irrefl _ (((hi x).1 hx).2 x hxq)
              · rcases ha with ⟨-, rfl⟩ | ⟨i, ⟨-, hi⟩, rfl⟩
                · simp at hd
                · rw [List.mem_singleton] at hd; subst hd
                  rw [Mem, start_of, stop_of] at hx
                  exact lt_irrefl _ (((hi x).1 hx).2 x hxq)
            · rw [h1 ho, List.mem_singleton] at hd
              rw [hd]; exact ho
          · exact ih d hd
      intro e he hc
      refine this e he ((overlap_iff (hg.inv.flat.1 e he) (valid_iff.1 hq)).2 ?_)
      simpa using hc

/-- in an ascending sequence the entries reaching from `y` down to `x` are a contiguous part -/
theorem reach_infix {l : List (K × V)} (hv : ∀ e ∈ l, start e.1 ≤ stop e.1) (hs : l.Pairwise (fun a b => stop a.1 ≤ start b.1)) (x y : I) :
    l.filter (fun e => decide (start e.1 ≤ y ∧ x ≤ stop e.1)) <:+: l := by
  induction l with
  | nil => simp
  | cons e l ih =>
    obtain ⟨h1, h2⟩ := List.pairwise_cons.1 hs
    by_cases hx : x ≤ stop e.1
    · have h3 : ∀ d ∈ e :: l, x ≤ stop d.1 := by
        intro d hd
        rcases List.mem_cons.1 hd with rfl | hd
        · exact hx
        · have := h1 d hd; have := hv d (by simp [hd]); order
      have h4 : (e :: l).filter (fun e => decide (start e.1 ≤ y ∧ x ≤ stop e.1)) = (e :: l).filter (fun e => decide (start e.1 ≤ y)) :=
        List.filter_congr fun d hd => by simp [h3 d hd]
      rw [h4]
      have h5 : ∀ m : List (K × V), m.Pairwise (fun a b => start a.1 ≤ start b.1) →
          m.filter (fun e => decide (start e.1 ≤ y)) <+: m := by
        intro m hm
        induction m with
        | nil => simp
        | cons d m ihm =>
          obtain ⟨g1, g2⟩ := List.pairwise_cons.1 hm
          by_cases hd : start d.1 ≤ y
          · rw [List.filter_cons_of_pos (by simpa using hd)]
            exact (List.cons_prefix_cons).2 ⟨rfl, ihm g2⟩
          · rw [List.filter_cons_of_neg (by simpa using hd), List.filter_eq_nil_iff.2]
            · exact List.nil_prefix
            · intro f hf; have := g1 f hf; simp only [decide_eq_true_eq]; order
      refine (h5 _ ?_).isInfix
      exact hs.imp_of_mem fun {a b} ha _ hab => le_trans (hv a ha) hab
    · rw [List.filter_cons_of_neg (by simp [hx])]
      exact (ih (fun d hd => hv d (by simp [hd])) h2).trans (List.suffix_cons _ _).isInfix

/-- **C110**: a wider query finds more: what a query lists is a contiguous part of what a wider one lists, and of all entries; and
`is_zero_overlap` passes to narrower queries. -/
theorem C110_wider_query (ops : List (ZOp I K V)) {q : Q} {q' : Q'} (hq : Valid q) (hsub : ∀ p : I, Mem p q → Mem p q') :
    (∃ l l', (after ops).overlapping q = .ok l ∧ (after ops).overlapping q' = .ok l' ∧ l <:+: l' ∧ l' <:+: (after ops).iter) ∧
    ((after ops).isZeroOverlap q' = .ok true → (after ops).isZeroOverlap q = .ok true) := by
  have hq1 := valid_iff.1 hq
  have hs := hsub _ ⟨le_refl _, hq1⟩
  have he := hsub _ ⟨hq1, le_refl _⟩
  have hv' : Valid q' := hq.imp hsub
  have hq2 := valid_iff.1 hv'
  have hg := (good_after ops).inv
  constructor
  · refine ⟨_, _, overlapping_ok hg hq1, overlapping_ok hg hq2, ?_, reach_infix hg.flat.1 hg.flat.2 _ _⟩
    have : ((after ops).iter.filter (fun e => decide (start e.1 ≤ stop q ∧ start q ≤ stop e.1))) =
        ((after ops).iter.filter (fun e => decide (start e.1 ≤ stop q' ∧ start q' ≤ stop e.1))).filter
          (fun e => decide (start e.1 ≤ stop q ∧ start q ≤ stop e.1)) := by
      rw [List.filter_filter]
      refine List.filter_congr fun e _ => ?_
      have h1 := hs.1; have h2 := he.2
      rw [Bool.eq_iff_iff, Bool.and_eq_true]
      simp only [decide_eq_true_eq]
      constructor
      · rintro ⟨a, b⟩; exact ⟨⟨a, b⟩, by order, by order⟩
      · exact fun h => h.1
    rw [this]
    exact reach_infix (fun e he => hg.flat.1 e (List.mem_filter.1 he).1) (hg.flat.2.filter _) _ _
  · obtain ⟨b, h1, h2⟩ := C38_is_zero_overlap ops hq
    obtain ⟨b', h1', h2'⟩ := C38_is_zero_overlap ops hv'
    rw [h1, h1', Except.ok.injEq, Except.ok.injEq, h2, h2']
    intro h e hem
    have hve := hg.flat.1 e hem
    have := (zeroOverlap_iff hve hq2).1 (h e hem)
    rw [zeroOverlap_iff hve hq1]
    have h1 := hs.1; have h2 := he.2
    rcases this with h | h
    · left; order
    · right; order

/-- **C110**: the query for everything lists everything, and its ends are `first_key_value` and `last_key_value`; an empty
`ZosditMap` lists nothing for any query. -/
theorem C110_whole_domain (ops : List (ZOp I K V)) :
    ∃ u : Interval I, uu = .ok u ∧ (after ops).overlapping u = .ok (after ops).iter ∧
      (after ops).firstKeyValue = (after ops).iter.head? ∧ (after ops).lastKeyValue = (after ops).iter.getLast? ∧
      ((after ops).isEmpty = true → (after ops).overlapping u = .ok []) := by
  classical
  have hv : Valid (⟨MIN, MAX⟩ : Interval I) := ⟨MIN, le_refl _, le_max _⟩
  have ho : (after ops).overlapping (⟨MIN, MAX⟩ : Interval I) = .ok (after ops).iter := by
    rw [C44_overlapping ops hv, List.filter_eq_self.2]
    intro e he
    simp only [decide_eq_true_eq]
    exact ⟨start e.1, ⟨le_refl _, (good_after ops).inv.flat.1 e he⟩, min_le _, le_max _⟩
  refine ⟨⟨MIN, MAX⟩, ?_, ho, (C51_first_last ops).1, (C51_first_last ops).2, fun h => ?_⟩
  · unfold uu mkChecked
    rw [invalidIntervalPanic_ok (q := (⟨MIN, MAX⟩ : Interval I)) (valid_iff.1 hv)]; rfl
  · rw [ho, ((C64_len_exact ops).2.1 h).1]

/-! ### Concrete cases -/

/-- a query listing two entries, a query in a gap, a lookup, and a cut that is not missed, on the map of `Demo.zops` -/
example : Valid (Demo.iv 7 30) ∧ Valid (Demo.iv 10 20) ∧
    (after Demo.zops).overlapping (Demo.iv 7 30) = .ok [(Demo.iv 6 8, 3), (Demo.iv 30 30, 6), (Demo.iv 30 30, 7)] ∧
    (after Demo.zops).isZeroOverlap (Demo.iv 10 20) = .ok true ∧ (after Demo.zops).isZeroOverlap (Demo.iv 7 7) = .ok false ∧
    (after Demo.zops).getLastValueAtPoint (Demo.u8 30) = some 7 ∧
    (∃ m', (after Demo.zops).cut (Demo.iv 1 7) = .ok (m', [(Demo.iv 1 2, 1), (Demo.iv 6 7, 3)])) :=
  ⟨valid_iff.2 (by decide), valid_iff.2 (by decide), by decide, by decide, by decide, by decide, _, rfl⟩
end Nodit
