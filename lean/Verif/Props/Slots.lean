import Verif.Props.Timeline
/-!
# C149: choosing as many back-to-back bookings as possible

A client offers bookings, which may start when another one ends, to a `ZosditMap` with `insert_strict_back` in the order of their ends.
-/
set_option linter.unusedSectionVars false
namespace Nodit.Slots
open Spec PointType IntervalType InclusiveInterval ZosditMap
variable {I K V : Type} [PointType I] [IntervalType I K] [LawfulPoint I] [LawfulInterval I K]

/-- the interval has more than one point -/
def Long (k : K) : Prop := ∃ p p' : I, Mem p k ∧ Mem p' k ∧ p < p'

theorem long_iff {k : K} : Long (I := I) k ↔ start (I := I) k < stop k := by
  constructor
  · rintro ⟨p, p', h1, h2, h3⟩; exact lt_of_le_of_lt h1.1 (lt_of_lt_of_le h3 h2.2)
  · intro h; exact ⟨start k, stop k, ⟨le_refl _, le_of_lt h⟩, ⟨le_of_lt h, le_refl _⟩, h⟩

theorem run_most (l : List ((K × V) × Nat)) (hl : ∀ e ∈ l, Long (I := I) e.1.1) (hs : l.Pairwise fun a b => stop (I := I) a.1.1 ≤ stop b.1.1)
    {s s' : ZState K V} {os : List (Res (ZOut K V))} (h : ZSpecRun s (Timeline.appends l) s' os)
    (hv : ∀ d ∈ s.entries, Valid (I := I) d.1) (hb : ∀ d ∈ s.entries, ∀ e ∈ l, stop (I := I) d.1 ≤ stop e.1.1)
    (S : List ((K × V) × Nat)) (hS : S.Sublist l) (hz : S.Pairwise fun a b => ZeroOverlap (I := I) a.1.1 b.1.1)
    (hc : ∀ x ∈ S, ∀ d ∈ s.entries, stop (I := I) d.1 ≤ start x.1.1) : S.length + s.entries.length ≤ s'.entries.length := by
  induction l generalizing s os S with
  | nil => cases h; cases hS; simp
  | cons e l ih =>
    obtain ⟨⟨k, v⟩, n⟩ := e
    have hk : start (I := I) k < stop k := long_iff.1 (hl ((k, v), n) (by simp))
    have hkv : Valid (I := I) k := valid_iff.2 (le_of_lt hk)
    have hs' := List.pairwise_cons.1 hs
    have hl' := fun x hx => hl x (List.mem_cons_of_mem _ hx)
    cases h with
    | cons h1 h2 =>
      rcases h1 with ⟨hbad, -⟩ | ⟨-, o, rfl, h1⟩
      · exact absurd hkv hbad
      by_cases hz0 : ∀ d ∈ s.entries, ZeroOverlap d.1 k
      · obtain ⟨-, l', ⟨a, k', b, e1, e2, e3, -⟩, rfl⟩ := h1.2 hz0
        have hk' : Valid (I := I) k' := by obtain ⟨x, hx⟩ := hkv; exact ⟨x, (e3 x).2 hx⟩
        obtain ⟨-, hst⟩ := (sameInterval_iff (valid_iff.1 hk') (valid_iff.1 hkv)).1 e3
        have hmem : ∀ d, d ∈ l' ↔ d ∈ s.entries ∨ d = (k', v) := fun d => by
          rw [e2, e1]; simp only [List.mem_append, List.mem_cons]; tauto
        have hlen : l'.length = s.entries.length + 1 := by rw [e2, e1]; simp; omega
        have hv1 : ∀ d ∈ l', Valid (I := I) d.1 := fun d hd => by
          rcases (hmem d).1 hd with hd | rfl
          exacts [hv d hd, hk']
        have hb1 : ∀ d ∈ l', ∀ x ∈ l, stop (I := I) d.1 ≤ stop x.1.1 := fun d hd x hx => by
          rcases (hmem d).1 hd with hd | rfl
          · exact hb d hd x (by simp [hx])
          · exact le_of_eq_of_le hst (hs'.1 x hx)
        -- what is compatible with an earlier-ending booking starts at its end or later
        have after : ∀ y x : (K × V) × Nat, start (I := I) y.1.1 < stop y.1.1 → start (I := I) x.1.1 < stop x.1.1 →
            stop (I := I) y.1.1 ≤ stop x.1.1 → ZeroOverlap (I := I) y.1.1 x.1.1 → stop (I := I) y.1.1 ≤ start x.1.1 := fun y x hy hx hyx hyz => by
          rcases (zeroOverlap_iff (le_of_lt hy) (le_of_lt hx)).1 hyz with hh | hh
          · exact hh
          · exact absurd (lt_of_le_of_lt hh hy) (not_lt.2 hyx)
        have step : ∀ T : List ((K × V) × Nat), T.Sublist l → T.Pairwise (fun a b => ZeroOverlap (I := I) a.1.1 b.1.1) →
            (∀ x ∈ T, (∀ d ∈ s.entries, stop (I := I) d.1 ≤ start x.1.1) ∧ stop (I := I) k ≤ start x.1.1) →
            T.length + 1 + s.entries.length ≤ s'.entries.length := fun T t1 t2 t3 => by
          have := ih hl' hs'.2 h2 hv1 hb1 T t1 t2 (fun x hx d hd => by
            rcases (hmem d).1 hd with hd | rfl
            · exact (t3 x hx).1 d hd
            · exact le_of_eq_of_le hst (t3 x hx).2)
          simp only [hlen] at this
          omega
        cases S with
        | nil => have := step [] (List.nil_sublist _) .nil (by simp); simp at this ⊢; omega
        | cons y T =>
          have hyl : y ∈ ((k, v), n) :: l := hS.subset (by simp)
          have hyT := List.pairwise_cons.1 hz
          have hT : T.Sublist l := by
            cases hS with
            | cons _ h => exact (List.sublist_cons_self y T).trans h
            | cons_cons _ h => exact h
          have hy := long_iff.1 (hl y hyl)
          have hord : ∀ x ∈ T, stop (I := I) y.1.1 ≤ stop x.1.1 := fun x hx => by
            exact (List.pairwise_cons.1 (hs.sublist hS)).1 x hx
          have hky : stop (I := I) k ≤ stop y.1.1 := by
            rcases List.mem_cons.1 hyl with rfl | hy'
            exacts [le_refl _, hs'.1 y hy']
          have := step T hT hyT.2 fun x hx => ⟨hc x (by simp [hx]), le_trans hky
            (after y x hy (long_iff.1 (hl' x (hT.subset hx))) (hord x hx) (hyT.1 x hx))⟩
          simp only [List.length_cons]
          omega
      · push Not at hz0
        obtain ⟨rfl, -⟩ := h1.1 hz0
        obtain ⟨d, hd, hdz⟩ := hz0
        rw [zeroOverlap_iff (valid_iff.1 (hv d hd)) (le_of_lt hk)] at hdz
        push Not at hdz
        have hT : S.Sublist l := by
          cases hS with
          | cons _ h => exact h
          | cons_cons _ h => exact absurd (hc ((k, v), n) (by simp) d hd) (not_le.2 hdz.1)
        exact ih hl' hs'.2 h2 hv (fun d hd x hx => hb d hd x (by simp [hx])) S hT hz hc

/-- **C149**: for all bookings with more than one point in the order of their ends, whatever the tree does, no selection of bookings which are compatible with each other
has more of them than the map. -/
theorem C149_most (l : List ((K × V) × Nat)) (hl : ∀ e ∈ l, Long (I := I) e.1.1) (hs : l.Pairwise fun a b => stop (I := I) a.1.1 ≤ stop b.1.1)
    (S : List ((K × V) × Nat)) (hS : S.Sublist l) (hz : S.Pairwise fun a b => ZeroOverlap (I := I) a.1.1 b.1.1) :
    S.length ≤ (after (Timeline.appends l)).iter.length := by
  obtain ⟨s, h1, h2, -⟩ := C62_refines (Timeline.appends l)
  have := run_most l hl hs h1 (by simp) (by simp) S hS hz (by simp)
  rw [h2]
  simpa using this

end Nodit.Slots
