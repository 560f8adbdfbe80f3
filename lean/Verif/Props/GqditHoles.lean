import Verif.Props.GqditStore
/-!
# C72: `gaps_with_identifier` on `Gqdit`s with holes, exactly
-/
set_option linter.unusedSectionVars false
namespace Nodit
open Spec PointType Gqdit
variable {I K Q D : Type} [PointType I] [IntervalType I K] [IntervalType I Q] [LawfulPoint I] [LawfulInterval I K] [DecidableEq D]

namespace Gqdit
theorem expandRight_exact {g : Gqdit K D} (hch : Chain g.inner.inner) (d : D) (p : I) :
    (g.expandGapsAtPointRight d p = .ok none ∧ ∀ e ∈ g.inner.inner, p ≤ stop e.1 → (∀ z ∈ g.inner.inner, p ≤ stop z.1 → z = e ∨ stop e.1 < start z.1) → validIdentifier d e.2 = false) ∨
    ∃ k a w, g.expandGapsAtPointRight d p = .ok (some k) ∧ w ∈ g.inner.inner ∧ stop w.1 = stop k ∧
      (∀ x ∈ g.inner.inner, stop k < start x.1 → ∃ b ∈ g.inner.inner, validIdentifier d b.2 = false ∧ start b.1 ≤ start x.1 ∧ stop k < start b.1) ∧ a ∈ g.inner.inner ∧ p ≤ stop a.1 ∧
      (∀ z ∈ g.inner.inner, p ≤ stop z.1 → z = a ∨ stop a.1 < start z.1) ∧ start k = start a.1 ∧ stop a.1 ≤ stop k ∧
      ∀ z ∈ g.inner.inner, start a.1 ≤ start z.1 → (stop z.1 ≤ stop k ∧ validIdentifier d z.2 = true) ∨ stop k < start z.1 := by
  have hq' : start (⟨p, MAX⟩ : Interval I) ≤ stop (⟨p, MAX⟩ : Interval I) := le_max p
  have hiu : (iu p : Res (Interval I)) = .ok ⟨p, MAX⟩ := by
    unfold iu mkChecked; rw [invalidIntervalPanic_ok hq']; rfl
  unfold Gqdit.expandGapsAtPointRight
  rw [hiu]
  simp only [bind, Except.bind, NoditMap.overlapping_ok hch hq', pure, Except.pure]
  have hR : Chain (g.inner.inner.filter (ovl (⟨p, MAX⟩ : Interval I))) := hch.filter _
  have hmR : ∀ e, e ∈ g.inner.inner.filter (ovl (⟨p, MAX⟩ : Interval I)) ↔ e ∈ g.inner.inner ∧ p ≤ stop e.1 := by
    intro e
    simp only [List.mem_filter, ovl, decide_eq_true_eq, start, stop]
    exact ⟨fun ⟨h1, _, h2⟩ => ⟨h1, h2⟩, fun ⟨h1, h2⟩ => ⟨h1, le_max _, h2⟩⟩
  generalize g.inner.inner.filter (ovl (⟨p, MAX⟩ : Interval I)) = R at hR hmR
  cases R with
  | nil => exact Or.inl ⟨rfl, fun e he hp _ => absurd ((hmR e).2 ⟨he, hp⟩) (by simp)⟩
  | cons a R =>
    obtain ⟨ha, hpa⟩ := (hmR a).1 (by simp)
    have hfirst : ∀ z ∈ g.inner.inner, p ≤ stop z.1 → z = a ∨ stop a.1 < start z.1 := by
      intro z hz hpz
      rcases List.mem_cons.1 ((hmR z).2 ⟨hz, hpz⟩) with rfl | hmem
      · exact Or.inl rfl
      · exact Or.inr ((Chain.cons.1 hR).2.1 z hmem)
    by_cases hv : validIdentifier d a.2 = true
    · right
      rw [List.takeWhile_cons_of_pos (p := fun e : K × Finset D => validIdentifier d e.2) hv, List.map_cons, coalesce]
      have hsplit := List.takeWhile_append_dropWhile (p := fun e : K × Finset D => validIdentifier d e.2) (l := R)
      have hT : ∀ z ∈ R.takeWhile (fun e => validIdentifier d e.2), validIdentifier d z.2 = true :=
        fun z hz => List.all_eq_true.1 (List.all_takeWhile (p := fun e : K × Finset D => validIdentifier d e.2) (l := R)) z hz
      have hU : ∀ u, (R.dropWhile (fun e => validIdentifier d e.2)).head? = some u → validIdentifier d u.2 = false := by
        intro u hu
        have := List.head?_dropWhile_not (fun e : K × Finset D => validIdentifier d e.2) R
        rw [hu] at this; exact this
      generalize R.takeWhile (fun e => validIdentifier d e.2) = T at hsplit hT
      generalize R.dropWhile (fun e => validIdentifier d e.2) = U at hsplit hU
      subst hsplit
      rw [← List.cons_append] at hR hmR
      obtain ⟨hcT, hcU, hTU⟩ := Chain.append.1 hR
      have hcK : ChainK (a.1 :: T.map Prod.fst) := by
        rw [← List.map_cons]
        exact ⟨fun k hk => by obtain ⟨z, hz, rfl⟩ := List.mem_map.1 hk; exact hcT.1 z hz, List.pairwise_map.2 hcT.2⟩
      obtain ⟨k, e1, e2, e3, e4, -⟩ := coalesceRight hcK
      simp only [bind, Except.bind, pure, Except.pure] at e1
      have hstop : ∀ z ∈ a :: T, stop z.1 ≤ stop k := fun z hz => e3 z.1 (by
        rw [← List.map_cons]; exact List.mem_map_of_mem hz)
      obtain ⟨w, hw, hwk⟩ : ∃ w ∈ a :: T, stop w.1 = stop k := by
        obtain ⟨z, hz, hzk⟩ := e4
        rw [← List.map_cons] at hz
        obtain ⟨w, hw, rfl⟩ := List.mem_map.1 hz
        exact ⟨w, hw, hzk⟩
      have hmax : ∀ x ∈ g.inner.inner, stop k < start x.1 → ∃ b ∈ g.inner.inner, validIdentifier d b.2 = false ∧ start b.1 ≤ start x.1 ∧
          stop k < start b.1 := by
        intro x hx hkx
        have hpx : p ≤ stop x.1 := by have := hch.1 x hx; have := hstop a (by simp); order
        rcases List.mem_append.1 ((hmR x).2 ⟨hx, hpx⟩) with hxT | hxU
        · have := hstop x hxT; have := hch.1 x hx; order
        · cases U with
          | nil => simp at hxU
          | cons u U =>
            have hu := (hmR u).1 (by simp)
            refine ⟨u, hu.1, hU u rfl, ?_, by rw [← hwk]; exact hTU w hw u (by simp)⟩
            rcases List.mem_cons.1 hxU with rfl | hxU
            · exact le_refl _
            · have := (Chain.cons.1 hcU).2.1 x hxU
              have := hch.1 u hu.1; order
      refine ⟨k, a, w, by rw [e1]; rfl, ((hmR w).1 (List.mem_append_left _ hw)).1, hwk, hmax, ha, hpa, hfirst, e2, hstop a (by simp), fun z hz haz => ?_⟩
      have hpz : p ≤ stop z.1 := by
        by_cases hza : z = a
        · rw [hza]; exact hpa
        · have := hch.1 z hz; have := hch.1 a ha
          rcases hch.apart hz ha hza with hlt | hlt <;> order
      rcases List.mem_append.1 ((hmR z).2 ⟨hz, hpz⟩) with hzT | hzU
      · refine Or.inl ⟨hstop z hzT, ?_⟩
        rcases List.mem_cons.1 hzT with rfl | hzT
        · exact hv
        · exact hT z hzT
      · have := hTU w hw z hzU
        exact Or.inr (by order)
    · left
      rw [List.takeWhile_cons_of_neg (p := fun e : K × Finset D => validIdentifier d e.2) hv]
      refine ⟨rfl, fun e he hp hf => ?_⟩
      rcases hfirst e he hp with rfl | hlt
      · simpa using hv
      · rcases hf a ha hpa with rfl | hlt'
        · simpa using hv
        · have := hch.1 a ha; have := hch.1 e he; order

theorem expandLeft_exact {g : Gqdit K D} (hch : Chain g.inner.inner) (d : D) (p : I) :
    (g.expandGapsAtPointLeft d p = .ok none ∧ ∀ e ∈ g.inner.inner, start e.1 ≤ p → (∀ z ∈ g.inner.inner, start z.1 ≤ p → z = e ∨ stop z.1 < start e.1) → validIdentifier d e.2 = false) ∨
    ∃ k a w, g.expandGapsAtPointLeft d p = .ok (some k) ∧ w ∈ g.inner.inner ∧ start w.1 = start k ∧
      (∀ x ∈ g.inner.inner, stop x.1 < start k → ∃ b ∈ g.inner.inner, validIdentifier d b.2 = false ∧ stop x.1 ≤ stop b.1 ∧ stop b.1 < start k) ∧ a ∈ g.inner.inner ∧ start a.1 ≤ p ∧
      (∀ z ∈ g.inner.inner, start z.1 ≤ p → z = a ∨ stop z.1 < start a.1) ∧ stop k = stop a.1 ∧ start k ≤ start a.1 ∧
      ∀ z ∈ g.inner.inner, stop z.1 ≤ stop a.1 → (start k ≤ start z.1 ∧ validIdentifier d z.2 = true) ∨ stop z.1 < start k := by
  have hq' : start (⟨MIN, p⟩ : Interval I) ≤ stop (⟨MIN, p⟩ : Interval I) := min_le p
  have hiu : (ui p : Res (Interval I)) = .ok ⟨MIN, p⟩ := by
    unfold ui mkChecked; rw [invalidIntervalPanic_ok hq']; rfl
  unfold Gqdit.expandGapsAtPointLeft
  rw [hiu]
  simp only [bind, Except.bind, NoditMap.overlapping_ok hch hq', pure, Except.pure]
  have hR : (g.inner.inner.filter (ovl (⟨MIN, p⟩ : Interval I))).reverse.Pairwise (fun a b => stop b.1 < start a.1) :=
    List.pairwise_reverse.2 (hch.filter _).2
  have hmR : ∀ e, e ∈ (g.inner.inner.filter (ovl (⟨MIN, p⟩ : Interval I))).reverse ↔ e ∈ g.inner.inner ∧ start e.1 ≤ p := by
    intro e
    simp only [List.mem_reverse, List.mem_filter, ovl, decide_eq_true_eq, start, stop]
    exact ⟨fun ⟨h1, h2, _⟩ => ⟨h1, h2⟩, fun ⟨h1, h2⟩ => ⟨h1, h2, min_le _⟩⟩
  generalize (g.inner.inner.filter (ovl (⟨MIN, p⟩ : Interval I))).reverse = R at hR hmR
  cases R with
  | nil => exact Or.inl ⟨rfl, fun e he hp _ => absurd ((hmR e).2 ⟨he, hp⟩) (by simp)⟩
  | cons a R =>
    obtain ⟨ha, hpa⟩ := (hmR a).1 (by simp)
    have hlast : ∀ z ∈ g.inner.inner, start z.1 ≤ p → z = a ∨ stop z.1 < start a.1 := by
      intro z hz hpz
      rcases List.mem_cons.1 ((hmR z).2 ⟨hz, hpz⟩) with rfl | hmem
      · exact Or.inl rfl
      · exact Or.inr ((List.pairwise_cons.1 hR).1 z hmem)
    by_cases hv : validIdentifier d a.2 = true
    · right
      rw [List.takeWhile_cons_of_pos (p := fun e : K × Finset D => validIdentifier d e.2) hv, List.map_cons, coalesce]
      have hsplit := List.takeWhile_append_dropWhile (p := fun e : K × Finset D => validIdentifier d e.2) (l := R)
      have hT : ∀ z ∈ R.takeWhile (fun e => validIdentifier d e.2), validIdentifier d z.2 = true :=
        fun z hz => List.all_eq_true.1 (List.all_takeWhile (p := fun e : K × Finset D => validIdentifier d e.2) (l := R)) z hz
      have hU : ∀ u, (R.dropWhile (fun e => validIdentifier d e.2)).head? = some u → validIdentifier d u.2 = false := by
        intro u hu
        have := List.head?_dropWhile_not (fun e : K × Finset D => validIdentifier d e.2) R
        rw [hu] at this; exact this
      generalize R.takeWhile (fun e => validIdentifier d e.2) = T at hsplit hT
      generalize R.dropWhile (fun e => validIdentifier d e.2) = U at hsplit hU
      subst hsplit
      rw [← List.cons_append] at hR hmR
      obtain ⟨hcT, hcU, hTU⟩ := List.pairwise_append.1 hR
      have hvT : ∀ z ∈ a :: T, start z.1 ≤ stop z.1 := fun z hz => hch.1 z ((hmR z).1 (List.mem_append_left _ hz)).1
      obtain ⟨k, e1, e2, e3, e4, -⟩ := coalesceLeft (x := a.1) (xs := T.map Prod.fst) (by
        rw [← List.map_cons]
        intro k hk; obtain ⟨z, hz, rfl⟩ := List.mem_map.1 hk; exact hvT z hz) (by
        rw [← List.map_cons]
        exact List.pairwise_map.2 hcT)
      simp only [bind, Except.bind, pure, Except.pure] at e1
      have hstart : ∀ z ∈ a :: T, start k ≤ start z.1 := fun z hz => e3 z.1 (by
        rw [← List.map_cons]; exact List.mem_map_of_mem hz)
      obtain ⟨w, hw, hwk⟩ : ∃ w ∈ a :: T, start w.1 = start k := by
        obtain ⟨z, hz, hzk⟩ := e4
        rw [← List.map_cons] at hz
        obtain ⟨w, hw, rfl⟩ := List.mem_map.1 hz
        exact ⟨w, hw, hzk⟩
      have hmax : ∀ x ∈ g.inner.inner, stop x.1 < start k → ∃ b ∈ g.inner.inner, validIdentifier d b.2 = false ∧ stop x.1 ≤ stop b.1 ∧
          stop b.1 < start k := by
        intro x hx hkx
        have hpx : start x.1 ≤ p := by have := hch.1 x hx; have := hstart a (by simp); order
        rcases List.mem_append.1 ((hmR x).2 ⟨hx, hpx⟩) with hxT | hxU
        · have := hstart x hxT; have := hch.1 x hx; order
        · cases U with
          | nil => simp at hxU
          | cons u U =>
            have hu := (hmR u).1 (by simp)
            refine ⟨u, hu.1, hU u rfl, ?_, by rw [← hwk]; exact hTU w hw u (by simp)⟩
            rcases List.mem_cons.1 hxU with rfl | hxU
            · exact le_refl _
            · have := (List.pairwise_cons.1 hcU).1 x hxU
              have := hch.1 u hu.1; order
      refine ⟨k, a, w, by rw [e1]; rfl, ((hmR w).1 (List.mem_append_left _ hw)).1, hwk, hmax, ha, hpa, hlast, e2, hstart a (by simp), fun z hz haz => ?_⟩
      have hpz : start z.1 ≤ p := by
        by_cases hza : z = a
        · rw [hza]; exact hpa
        · have := hch.1 z hz; have := hch.1 a ha
          rcases hch.apart hz ha hza with hlt | hlt <;> order
      rcases List.mem_append.1 ((hmR z).2 ⟨hz, hpz⟩) with hzT | hzU
      · refine Or.inl ⟨hstart z hzT, ?_⟩
        rcases List.mem_cons.1 hzT with rfl | hzT
        · exact hv
        · exact hT z hzT
      · have := hTU w hw z hzU
        exact Or.inr (by order)
    · left
      rw [List.takeWhile_cons_of_neg (p := fun e : K × Finset D => validIdentifier d e.2) hv]
      refine ⟨rfl, fun e he hp hf => ?_⟩
      rcases hlast e he hp with rfl | hlt
      · simpa using hv
      · rcases hf a ha hpa with rfl | hlt'
        · simpa using hv
        · have := hch.1 a ha; have := hch.1 e he; order


theorem exists_last {E : List (K × Finset D)} (hch : Chain E) (p : I) {z : K × Finset D} (hz : z ∈ E) (hzp : start z.1 ≤ p) :
    ∃ a ∈ E, start a.1 ≤ p ∧ ∀ y ∈ E, start y.1 ≤ p → y = a ∨ stop y.1 < start a.1 := by
  have hR : (E.filter (fun e => decide (start e.1 ≤ p))).reverse.Pairwise (fun a b => stop b.1 < start a.1) :=
    List.pairwise_reverse.2 (hch.filter _).2
  have hm : ∀ e, e ∈ (E.filter (fun e => decide (start e.1 ≤ p))).reverse ↔ e ∈ E ∧ start e.1 ≤ p := by
    intro e; simp
  generalize (E.filter (fun e => decide (start e.1 ≤ p))).reverse = R at hR hm
  cases R with
  | nil => exact absurd ((hm z).2 ⟨hz, hzp⟩) (by simp)
  | cons a R =>
    obtain ⟨ha, hap⟩ := (hm a).1 (by simp)
    refine ⟨a, ha, hap, fun y hy hyp => ?_⟩
    rcases List.mem_cons.1 ((hm y).2 ⟨hy, hyp⟩) with rfl | h
    · exact Or.inl rfl
    · exact Or.inr ((List.pairwise_cons.1 hR).1 y h)

theorem exists_first {E : List (K × Finset D)} (hch : Chain E) (p : I) {z : K × Finset D} (hz : z ∈ E) (hzp : p ≤ stop z.1) :
    ∃ a ∈ E, p ≤ stop a.1 ∧ ∀ y ∈ E, p ≤ stop y.1 → y = a ∨ stop a.1 < start y.1 := by
  have hR : Chain (E.filter (fun e => decide (p ≤ stop e.1))) := hch.filter _
  have hm : ∀ e, e ∈ E.filter (fun e => decide (p ≤ stop e.1)) ↔ e ∈ E ∧ p ≤ stop e.1 := by
    intro e; simp
  generalize E.filter (fun e => decide (p ≤ stop e.1)) = R at hR hm
  cases R with
  | nil => exact absurd ((hm z).2 ⟨hz, hzp⟩) (by simp)
  | cons a R =>
    obtain ⟨ha, hap⟩ := (hm a).1 (by simp)
    refine ⟨a, ha, hap, fun y hy hyp => ?_⟩
    rcases List.mem_cons.1 ((hm y).2 ⟨hy, hyp⟩) with rfl | h
    · exact Or.inl rfl
    · exact Or.inr ((Chain.cons.1 hR).2.1 y h)

/-- the points of the interval found to the left -/
theorem left_points {g : Gqdit K D} (hch : Chain g.inner.inner) (d : D) {q : Q} (hq' : start q ≤ stop q)
    {F B : I → Prop} (hF : ∀ x, F x ↔ ∃ e ∈ g.inner.inner, Mem x e.1 ∧ validIdentifier d e.2 = true)
    (hB : ∀ x, B x ↔ ∃ e ∈ g.inner.inner, Mem x e.1 ∧ validIdentifier d e.2 = false) {lo : Option K}
    (hlo : g.expandGapsAtPointLeft d (start q) = .ok lo) (p : I) :
    ((∃ k, lo = some k ∧ Mem p k) → (Mem p q ∧ F p) ∨
      (∃ x z, F x ∧ F z ∧ x ≤ p ∧ p ≤ z ∧ z ≤ start q ∧ ∀ b, B b → x ≤ b → start q < b) ∨
      (∃ x z, F x ∧ F z ∧ z ≤ p ∧ p ≤ x ∧ stop q ≤ z ∧ ∀ b, B b → b ≤ x → b < stop q)) ∧
    ((∃ x z, F x ∧ F z ∧ x ≤ p ∧ p ≤ z ∧ z ≤ start q ∧ ∀ b, B b → x ≤ b → start q < b) → ∃ k, lo = some k ∧ Mem p k) ∧
    (∀ e ∈ g.inner.inner, validIdentifier d e.2 = true → Mem p e.1 → Mem (start q) e.1 → ∃ k, lo = some k ∧ Mem p k) := by
  rcases expandLeft_exact hch d (start q) with ⟨h1, h2⟩ | ⟨k, a, w, h1, hw, hwk, hmax, ha, hap, hlast, hka, hks, hrun⟩
  · rw [h1] at hlo; injection hlo with hlo; subst hlo
    refine ⟨by simp, ?_, ?_⟩
    · rintro ⟨x, z, hx, hz, hxp, hpz, hzq, hno⟩
      exfalso
      obtain ⟨Z, hZ, hzZ, hvZ⟩ := (hF z).1 hz
      obtain ⟨a, ha, hap, hlast⟩ := exists_last hch (start q) hZ (le_trans hzZ.1 hzq)
      have hinv := h2 a ha hap hlast
      have hav := hch.1 a ha
      have := hzZ.1; have := hzZ.2
      rcases hlast Z hZ (le_trans hzZ.1 hzq) with rfl | hlt
      · rw [hvZ] at hinv; cases hinv
      · have := hno (start a.1) ((hB _).2 ⟨a, ha, ⟨le_refl _, hav⟩, hinv⟩) (by order)
        order
    · intro e he hv hp hs
      obtain ⟨a, ha, hap, hlast⟩ := exists_last hch (start q) he hs.1
      have hinv := h2 a ha hap hlast
      have := hs.2
      rcases hlast e he hs.1 with rfl | hlt
      · rw [hv] at hinv; cases hinv
      · order
  · rw [h1] at hlo; injection hlo with hlo; subst hlo
    have hav := hch.1 a ha
    have hva : validIdentifier d a.2 = true := by
      rcases hrun a ha (le_refl _) with h | h
      · exact h.2
      · order
    have hB' : ∀ b, B b → start k ≤ b → start q < b := by
      intro b hb hkb
      obtain ⟨e, he, hbe, hv⟩ := (hB b).1 hb
      have := hbe.1; have := hbe.2
      by_contra hc
      rcases hlast e he (by order) with rfl | hlt
      · rw [hva] at hv; cases hv
      · rcases hrun e he (by order) with h | h
        · rw [hv] at h; exact absurd h.2 (by simp)
        · order
    refine ⟨?_, ?_, ?_⟩
    · rintro ⟨k', hk', hp⟩
      injection hk' with hk'; subst hk'
      have hp1 := hp.1; have hp2 := hp.2
      rcases le_or_gt p (start q) with hpq | hpq
      · right; left
        have hwv := hch.1 w hw
        have hvw : validIdentifier d w.2 = true := by
          have hwa : stop w.1 ≤ stop a.1 := by
            by_cases hea : w = a
            · rw [hea]
            · rcases hch.apart hw ha hea with hlt | hlt <;> order
          rcases hrun w hw hwa with h | h
          · exact h.2
          · order
        have hFk : F (start k) := (hF _).2 ⟨w, hw, ⟨hwk.le, by order⟩, hvw⟩
        rcases le_or_gt (start a.1) p with hpa | hpa
        · exact ⟨start k, p, hFk, (hF _).2 ⟨a, ha, ⟨hpa, by order⟩, hva⟩, hp1, le_refl _, hpq, hB'⟩
        · exact ⟨start k, start a.1, hFk, (hF _).2 ⟨a, ha, ⟨le_refl _, hav⟩, hva⟩, hp1, le_of_lt hpa, hap, hB'⟩
      · have hpa : Mem p a.1 := ⟨by order, by order⟩
        have hFp : F p := (hF _).2 ⟨a, ha, hpa, hva⟩
        rcases le_or_gt p (stop q) with hpt | hpt
        · exact Or.inl ⟨⟨le_of_lt hpq, hpt⟩, hFp⟩
        · right; right
          refine ⟨p, stop q, hFp, (hF _).2 ⟨a, ha, ⟨by order, by order⟩, hva⟩, le_of_lt hpt, le_refl _, le_refl _, ?_⟩
          intro b hb hbp
          obtain ⟨e, he, hbe, hv⟩ := (hB b).1 hb
          have := hbe.1; have := hbe.2
          have hne : e ≠ a := by rintro rfl; rw [hva] at hv; cases hv
          rcases hch.apart he ha hne with hlt | hlt <;> order
    · rintro ⟨x, z, hx, hz, hxp, hpz, hzq, hno⟩
      refine ⟨k, rfl, ?_, ?_⟩
      · obtain ⟨X, hX, hxX, hvX⟩ := (hF x).1 hx
        have := hxX.1; have := hxX.2
        have hXa : stop X.1 ≤ stop a.1 := by
          rcases hlast X hX (by order) with rfl | h
          · exact le_refl _
          · order
        rcases hrun X hX hXa with h | h
        · have := h.1; order
        · obtain ⟨b, hb, hbv, h3, h4⟩ := hmax X hX h
          have := hno (stop b.1) ((hB _).2 ⟨b, hb, ⟨hch.1 b hb, le_refl _⟩, hbv⟩) (by order)
          order
      · obtain ⟨Z, hZ, hzZ, hvZ⟩ := (hF z).1 hz
        have := hzZ.1; have := hzZ.2
        rcases hlast Z hZ (by order) with rfl | h <;> order
    · intro e he hv hp hs
      have := hs.1; have := hs.2; have := hp.1; have := hp.2
      rcases hlast e he hs.1 with rfl | hlt
      · exact ⟨k, rfl, by order, by order⟩
      · order

/-- the points of the interval found to the right -/
theorem right_points {g : Gqdit K D} (hch : Chain g.inner.inner) (d : D) {q : Q} (hq' : start q ≤ stop q)
    {F B : I → Prop} (hF : ∀ x, F x ↔ ∃ e ∈ g.inner.inner, Mem x e.1 ∧ validIdentifier d e.2 = true)
    (hB : ∀ x, B x ↔ ∃ e ∈ g.inner.inner, Mem x e.1 ∧ validIdentifier d e.2 = false) {ro : Option K}
    (hro : g.expandGapsAtPointRight d (stop q) = .ok ro) (p : I) :
    ((∃ k, ro = some k ∧ Mem p k) → (Mem p q ∧ F p) ∨
      (∃ x z, F x ∧ F z ∧ x ≤ p ∧ p ≤ z ∧ z ≤ start q ∧ ∀ b, B b → x ≤ b → start q < b) ∨
      (∃ x z, F x ∧ F z ∧ z ≤ p ∧ p ≤ x ∧ stop q ≤ z ∧ ∀ b, B b → b ≤ x → b < stop q)) ∧
    ((∃ x z, F x ∧ F z ∧ z ≤ p ∧ p ≤ x ∧ stop q ≤ z ∧ ∀ b, B b → b ≤ x → b < stop q) → ∃ k, ro = some k ∧ Mem p k) ∧
    (∀ e ∈ g.inner.inner, validIdentifier d e.2 = true → Mem p e.1 → Mem (stop q) e.1 → ∃ k, ro = some k ∧ Mem p k) := by
  rcases expandRight_exact hch d (stop q) with ⟨h1, h2⟩ | ⟨k, a, w, h1, hw, hwk, hmax, ha, hap, hlast, hka, hks, hrun⟩
  · rw [h1] at hro; injection hro with hro; subst hro
    refine ⟨by simp, ?_, ?_⟩
    · rintro ⟨x, z, hx, hz, hxp, hpz, hzq, hno⟩
      exfalso
      obtain ⟨Z, hZ, hzZ, hvZ⟩ := (hF z).1 hz
      obtain ⟨a, ha, hap, hlast⟩ := exists_first hch (stop q) hZ (le_trans hzq hzZ.2)
      have hinv := h2 a ha hap hlast
      have hav := hch.1 a ha
      have := hzZ.1; have := hzZ.2
      rcases hlast Z hZ (le_trans hzq hzZ.2) with rfl | hlt
      · rw [hvZ] at hinv; cases hinv
      · have := hno (stop a.1) ((hB _).2 ⟨a, ha, ⟨hav, le_refl _⟩, hinv⟩) (by order)
        order
    · intro e he hv hp hs
      obtain ⟨a, ha, hap, hlast⟩ := exists_first hch (stop q) he hs.2
      have hinv := h2 a ha hap hlast
      have := hs.1
      rcases hlast e he hs.2 with rfl | hlt
      · rw [hv] at hinv; cases hinv
      · order
  · rw [h1] at hro; injection hro with hro; subst hro
    have hav := hch.1 a ha
    have hva : validIdentifier d a.2 = true := by
      rcases hrun a ha (le_refl _) with h | h
      · exact h.2
      · order
    have hB' : ∀ b, B b → b ≤ stop k → b < stop q := by
      intro b hb hkb
      obtain ⟨e, he, hbe, hv⟩ := (hB b).1 hb
      have := hbe.1; have := hbe.2
      by_contra hc
      rcases hlast e he (by order) with rfl | hlt
      · rw [hva] at hv; cases hv
      · rcases hrun e he (by order) with h | h
        · rw [hv] at h; exact absurd h.2 (by simp)
        · order
    refine ⟨?_, ?_, ?_⟩
    · rintro ⟨k', hk', hp⟩
      injection hk' with hk'; subst hk'
      have hp1 := hp.1; have hp2 := hp.2
      rcases le_or_gt (stop q) p with hpq | hpq
      · right; right
        have hwv := hch.1 w hw
        have hvw : validIdentifier d w.2 = true := by
          have hwa : start a.1 ≤ start w.1 := by
            by_cases hea : w = a
            · rw [hea]
            · rcases hch.apart hw ha hea with hlt | hlt <;> order
          rcases hrun w hw hwa with h | h
          · exact h.2
          · order
        have hFk : F (stop k) := (hF _).2 ⟨w, hw, ⟨by order, hwk.ge⟩, hvw⟩
        rcases le_or_gt p (stop a.1) with hpa | hpa
        · exact ⟨stop k, p, hFk, (hF _).2 ⟨a, ha, ⟨by order, hpa⟩, hva⟩, le_refl _, hp2, hpq, hB'⟩
        · exact ⟨stop k, stop a.1, hFk, (hF _).2 ⟨a, ha, ⟨hav, le_refl _⟩, hva⟩, le_of_lt hpa, hp2, hap, hB'⟩
      · have hpa : Mem p a.1 := ⟨by order, by order⟩
        have hFp : F p := (hF _).2 ⟨a, ha, hpa, hva⟩
        rcases le_or_gt (start q) p with hpt | hpt
        · exact Or.inl ⟨⟨hpt, le_of_lt hpq⟩, hFp⟩
        · right; left
          refine ⟨p, start q, hFp, (hF _).2 ⟨a, ha, ⟨by order, by order⟩, hva⟩, le_refl _, le_of_lt hpt, le_refl _, ?_⟩
          intro b hb hbp
          obtain ⟨e, he, hbe, hv⟩ := (hB b).1 hb
          have := hbe.1; have := hbe.2
          have hne : e ≠ a := by rintro rfl; rw [hva] at hv; cases hv
          rcases hch.apart he ha hne with hlt | hlt <;> order
    · rintro ⟨x, z, hx, hz, hxp, hpz, hzq, hno⟩
      refine ⟨k, rfl, ?_, ?_⟩
      · obtain ⟨Z, hZ, hzZ, hvZ⟩ := (hF z).1 hz
        have := hzZ.1; have := hzZ.2
        rcases hlast Z hZ (by order) with rfl | h <;> order
      · obtain ⟨X, hX, hxX, hvX⟩ := (hF x).1 hx
        have := hxX.1; have := hxX.2
        have hXa : start a.1 ≤ start X.1 := by
          rcases hlast X hX (by order) with rfl | h
          · exact le_refl _
          · order
        rcases hrun X hX hXa with h | h
        · have := h.1; order
        · obtain ⟨b, hb, hbv, h3, h4⟩ := hmax X hX h
          have := hno (start b.1) ((hB _).2 ⟨b, hb, ⟨le_refl _, hch.1 b hb⟩, hbv⟩) (by order)
          order
    · intro e he hv hp hs
      have := hs.1; have := hs.2; have := hp.1; have := hp.2
      rcases hlast e he hs.2 with rfl | hlt
      · exact ⟨k, rfl, by order, by order⟩
      · order


theorem gapsWith_exact {g : Gqdit K D} (hch : Chain g.inner.inner) (d : D) {q : Q} (hq' : start q ≤ stop q)
    {F B : I → Prop} (hF : ∀ x, F x ↔ ∃ e ∈ g.inner.inner, Mem x e.1 ∧ validIdentifier d e.2 = true)
    (hB : ∀ x, B x ↔ ∃ e ∈ g.inner.inner, Mem x e.1 ∧ validIdentifier d e.2 = false) :
    ∃ l : List K, g.gapsWithIdentifier d q = .ok l ∧ (∀ k ∈ l, start k ≤ stop k) ∧
      l.Pairwise (fun a b : K => stop a < start b ∧ up (stop a) ≠ some (start b)) ∧
      ∀ p, (∃ k ∈ l, Mem p k) ↔ (Mem p q ∧ F p) ∨
        (∃ x z, F x ∧ F z ∧ x ≤ p ∧ p ≤ z ∧ z ≤ start q ∧ ∀ b, B b → x ≤ b → start q < b) ∨
        (∃ x z, F x ∧ F z ∧ z ≤ p ∧ p ≤ x ∧ stop q ≤ z ∧ ∀ b, B b → b ≤ x → b < stop q) := by
  -- from a list of pieces to the coalesced list
  have fin : ∀ (ls : List K) (P : I → Prop), ChainK ls → (∀ p, (∃ k ∈ ls, Mem p k) ↔ P p) →
      ∃ l, coalesce (fun x y => do
          if ← touchesOrdered x y then pure (.ok (ofInterval (← mergeOrdered x y) : K)) else pure (.error (x, y))) ls
          = (.ok l : Res (List K)) ∧ (∀ k ∈ l, start k ≤ stop k) ∧
        l.Pairwise (fun a b : K => stop a < start b ∧ up (stop a) ≠ some (start b)) ∧ (∀ p, (∃ k ∈ l, Mem p k) ↔ P p) := by
    intro ls P h1 h2
    cases ls with
    | nil => exact ⟨[], rfl, by simp, by simp, h2⟩
    | cons x xs =>
      obtain ⟨rs, e1, e2, e3, e4, e5, -⟩ := coalesceTouch h1
      refine ⟨rs, e1, fun k hk => (e2 k hk).1, e3, fun p => ?_⟩
      rw [← h2]
      constructor
      · rintro ⟨k, hk, hp⟩; exact e5 k hk p hp
      · rintro ⟨k, hk, hp⟩
        obtain ⟨r, hr, h7, h8⟩ := e4 k hk
        exact ⟨r, hr, le_trans h7 hp.1, le_trans hp.2 h8⟩
  unfold Gqdit.gapsWithIdentifier
  rw [invalidIntervalPanic_ok hq', NoditMap.overlapping_ok hch hq']
  simp only [bind, Except.bind]
  simp only [bind, Except.bind] at fin
  generalize hN : List.filter (fun gap =>
      !InclusiveInterval.containsPoint gap (start q) && !InclusiveInterval.containsPoint gap (stop q))
      (List.map Prod.fst (List.filter (fun e => validIdentifier d e.2) (List.filter (ovl q) g.inner.inner))) = N
  have hNch : ChainK N := by
    subst hN
    have := (hch.filter (ovl q)).filter (fun e => validIdentifier d e.2)
    refine ⟨?_, (List.pairwise_map.2 this.2).filter _⟩
    intro k hk
    obtain ⟨e, he, rfl⟩ := List.mem_map.1 (List.mem_filter.1 hk).1
    exact this.1 e he
  have hNm : ∀ k, k ∈ N ↔ ∃ e ∈ g.inner.inner, e.1 = k ∧ validIdentifier d e.2 = true ∧ start q < start e.1 ∧
      stop e.1 < stop q := by
    intro k
    subst hN
    simp only [List.mem_filter, List.mem_map, Bool.and_eq_true, Bool.not_eq_true', InclusiveInterval.containsPoint,
      Bool.and_eq_false_iff, decide_eq_false_iff_not, ge_iff_le, ovl, decide_eq_true_eq]
    constructor
    · rintro ⟨⟨e, ⟨⟨he, h1, h2⟩, h3⟩, rfl⟩, h4, h5⟩
      have := hch.1 e he
      exact ⟨e, he, rfl, h3, by rcases h4 with h4 | h4 <;> order, by rcases h5 with h5 | h5 <;> order⟩
    · rintro ⟨e, he, rfl, h3, h4, h5⟩
      have := hch.1 e he
      exact ⟨⟨e, ⟨⟨he, by order, by order⟩, h3⟩, rfl⟩, Or.inl (by order), Or.inr (by order)⟩
  -- the points of all pieces
  have pts : ∀ lo ro : Option K, g.expandGapsAtPointLeft d (start q) = .ok lo → g.expandGapsAtPointRight d (stop q) = .ok ro →
      ∀ p, ((∃ k, lo = some k ∧ Mem p k) ∨ (∃ k ∈ N, Mem p k) ∨ (∃ k, ro = some k ∧ Mem p k)) ↔ (Mem p q ∧ F p) ∨
        (∃ x z, F x ∧ F z ∧ x ≤ p ∧ p ≤ z ∧ z ≤ start q ∧ ∀ b, B b → x ≤ b → start q < b) ∨
        (∃ x z, F x ∧ F z ∧ z ≤ p ∧ p ≤ x ∧ stop q ≤ z ∧ ∀ b, B b → b ≤ x → b < stop q) := by
    intro lo ro hlo hro p
    obtain ⟨l1, l2, l3⟩ := left_points hch d hq' hF hB hlo p
    obtain ⟨r1, r2, r3⟩ := right_points hch d hq' hF hB hro p
    constructor
    · rintro (h | ⟨k, hk, hp⟩ | h)
      · exact l1 h
      · obtain ⟨e, he, rfl, hv, h5, h6⟩ := (hNm k).1 hk
        have := hp.1; have := hp.2
        exact Or.inl ⟨⟨by order, by order⟩, (hF p).2 ⟨e, he, hp, hv⟩⟩
      · exact r1 h
    · rintro (⟨hpq, hFp⟩ | h | h)
      · obtain ⟨e, he, hp, hv⟩ := (hF p).1 hFp
        have := hp.1; have := hp.2; have := hpq.1; have := hpq.2
        rcases le_or_gt (start e.1) (start q) with hs | hs
        · exact Or.inl (l3 e he hv hp ⟨hs, by order⟩)
        · rcases le_or_gt (stop q) (stop e.1) with ht | ht
          · exact Or.inr (Or.inr (r3 e he hv hp ⟨by order, ht⟩))
          · exact Or.inr (Or.inl ⟨e.1, (hNm _).2 ⟨e, he, rfl, hv, hs, ht⟩, hp⟩)
      · exact Or.inl (l2 h)
      · exact Or.inr (Or.inr (r2 h))
  -- the list of pieces, unless the end pieces overlap
  have main : ∀ lo ro : Option K,
      (∀ k, lo = some k → start k ≤ stop k ∧ ∀ e ∈ g.inner.inner, start q < start e.1 → stop e.1 < stop q → stop k < start e.1) →
      (∀ k, ro = some k → start k ≤ stop k ∧ ∀ e ∈ g.inner.inner, start q < start e.1 → stop e.1 < stop q → stop e.1 < start k) →
      (∀ k k', lo = some k → ro = some k' → stop k < start k') → ChainK (lo.toList ++ N ++ ro.toList) := by
    intro lo ro hl hr hlr
    have hmem : ∀ k, k ∈ lo.toList ++ N ++ ro.toList ↔ lo = some k ∨ k ∈ N ∨ ro = some k := by
      intro k; simp only [List.mem_append, Option.mem_toList, or_assoc]
    refine ⟨fun k hk => ?_, ?_⟩
    · rcases (hmem k).1 hk with hk | hk | hk
      · exact (hl k hk).1
      · exact hNch.1 k hk
      · exact (hr k hk).1
    · rw [List.pairwise_append, List.pairwise_append]
      refine ⟨⟨by cases lo <;> simp, hNch.2, ?_⟩, by cases ro <;> simp, ?_⟩
      · intro x hx b hb
        have hx : lo = some x := by simpa using hx
        obtain ⟨e, he, rfl, hv, h5, h6⟩ := (hNm b).1 hb
        exact (hl x hx).2 e he h5 h6
      · intro x hx b hb
        have hb : ro = some b := by simpa using hb
        rcases List.mem_append.1 hx with hx | hx
        · exact hlr x b (by simpa using hx) hb
        · obtain ⟨e, he, rfl, hv, h5, h6⟩ := (hNm x).1 hx
          exact (hr b hb).2 e he h5 h6
  have memK : ∀ (lo ro : Option K) (p : I), (∃ k ∈ lo.toList ++ N ++ ro.toList, Mem p k) ↔
      ((∃ k, lo = some k ∧ Mem p k) ∨ (∃ k ∈ N, Mem p k) ∨ (∃ k, ro = some k ∧ Mem p k)) := by
    intro lo ro p
    simp only [List.mem_append, Option.mem_toList]
    constructor
    · rintro ⟨k, (h | h) | h, hp⟩
      · exact Or.inl ⟨k, h, hp⟩
      · exact Or.inr (Or.inl ⟨k, h, hp⟩)
      · exact Or.inr (Or.inr ⟨k, h, hp⟩)
    · rintro (⟨k, h, hp⟩ | ⟨k, h, hp⟩ | ⟨k, h, hp⟩)
      · exact ⟨k, Or.inl (Or.inl h), hp⟩
      · exact ⟨k, Or.inl (Or.inr h), hp⟩
      · exact ⟨k, Or.inr h, hp⟩
  have okL : ∀ (kl : K) a, a ∈ g.inner.inner → start a.1 ≤ start q → stop kl = stop a.1 → start kl ≤ start a.1 →
      start kl ≤ stop kl ∧ ∀ e ∈ g.inner.inner, start q < start e.1 → stop e.1 < stop q → stop kl < start e.1 := by
    intro kl a ha h1 h3 h4
    have := hch.1 a ha
    refine ⟨by order, fun e he h5 h6 => ?_⟩
    rw [h3]
    have hne : a ≠ e := by rintro rfl; order
    have := hch.1 e he
    rcases hch.apart ha he hne with hlt | hlt
    · exact hlt
    · order
  have okR : ∀ (kr : K) b, b ∈ g.inner.inner → stop q ≤ stop b.1 → start kr = start b.1 → stop b.1 ≤ stop kr →
      start kr ≤ stop kr ∧ ∀ e ∈ g.inner.inner, start q < start e.1 → stop e.1 < stop q → stop e.1 < start kr := by
    intro kr b hb h1 h3 h4
    have := hch.1 b hb
    refine ⟨by order, fun e he h5 h6 => ?_⟩
    rw [h3]
    have hne : e ≠ b := by rintro rfl; order
    have := hch.1 e he
    rcases hch.apart he hb hne with hlt | hlt
    · exact hlt
    · order
  rcases expandLeft_exact hch d (start q) with ⟨hl1, hl2⟩ | ⟨kl, a, -, hl1, -, -, -, hl2, hl3, hl4, hl5, hl6, hl7⟩ <;>
    rcases expandRight_exact hch d (stop q) with ⟨hr1, hr2⟩ | ⟨kr, b, -, hr1, -, -, -, hr2, hr3, hr4, hr5, hr6, hr7⟩ <;>
    have P := pts _ _ hl1 hr1 <;>
    simp only [hl1, hr1, pure, Except.pure]
  · exact fin _ _ (main none none (by simp) (by simp) (by simp)) (fun p => (memK none none p).trans (P p))
  · exact fin _ _ (main none (some kr) (by simp) (fun k hk => by injection hk with hk; subst hk; exact okR _ b hr2 hr3 hr5 hr6) (by simp))
      (fun p => (memK none (some kr) p).trans (P p))
  · exact fin _ _ (main (some kl) none (fun k hk => by injection hk with hk; subst hk; exact okL _ a hl2 hl3 hl5 hl6) (by simp) (by simp))
      (fun p => (memK (some kl) none p).trans (P p))
  · have hav := hch.1 a hl2
    have hbv := hch.1 b hr2
    by_cases hab : a = b
    · subst hab
      have hov : overlapsOrdered kl kr = true := by
        simp only [overlapsOrdered, InclusiveInterval.containsPoint, Bool.or_eq_true, Bool.and_eq_true, decide_eq_true_eq,
          ge_iff_le]
        exact Or.inl ⟨by order, by order⟩
      have hle : start kl ≤ stop kr := by order
      have hm : (mergeOrdered kl kr : Res (Interval I)) = .ok ⟨start kl, stop kr⟩ := ii_ok hle
      have hNnil : N = [] := List.eq_nil_iff_forall_not_mem.2 fun k hk => by
        obtain ⟨e, he, rfl, hv, h5, h6⟩ := (hNm k).1 hk
        have hne : e ≠ a := by rintro rfl; order
        have := hch.1 e he
        rcases hch.apart he hl2 hne with hlt | hlt <;> order
      simp only [hov, hm, if_true, hNnil, Option.toList_some, Option.toList_none, List.append_nil]
      refine fin _ _ ⟨by simp [start_of, stop_of, hle], by simp⟩ (fun p => ?_)
      rw [← P p, hNnil]
      simp only [List.mem_singleton, exists_eq_left, mem_ofInterval, Option.some.injEq, exists_eq_left', List.not_mem_nil, false_and,
        exists_false, false_or]
      show (start kl ≤ p ∧ p ≤ stop kr) ↔ (start kl ≤ p ∧ p ≤ stop kl) ∨ (start kr ≤ p ∧ p ≤ stop kr)
      constructor
      · rintro ⟨h1, h2⟩
        rcases le_or_gt p (stop kl) with h | h
        · exact Or.inl ⟨h1, h⟩
        · exact Or.inr ⟨by order, h2⟩
      · rintro (⟨h1, h2⟩ | ⟨h1, h2⟩)
        · exact ⟨h1, by order⟩
        · exact ⟨by order, h2⟩
    · have hlt : stop a.1 < start b.1 := by
        rcases hch.apart hl2 hr2 hab with hlt | hlt
        · exact hlt
        · order
      have hov : overlapsOrdered kl kr = false := by
        simp only [overlapsOrdered, InclusiveInterval.containsPoint, Bool.or_eq_false_iff, Bool.and_eq_false_iff,
          decide_eq_false_iff_not, ge_iff_le]
        exact ⟨Or.inr (by order), Or.inr (by order)⟩
      simp only [hov, Bool.false_eq_true, if_false]
      exact fin _ _ (main (some kl) (some kr) (fun k hk => by injection hk with hk; subst hk; exact okL _ a hl2 hl3 hl5 hl6)
        (fun k hk => by injection hk with hk; subst hk; exact okR _ b hr2 hr3 hr5 hr6)
        (fun k k' hk hk' => by injection hk with hk; injection hk' with hk'; subst hk hk'; order))
        (fun p => (memK (some kl) (some kr) p).trans (P p))
end Gqdit

/-- a list of intervals no two of which touch is the list of the maximal runs of its points -/
theorem maximalRuns_of_list {l : List K} {P : I → Prop} (h1 : ∀ k ∈ l, start k ≤ stop k)
    (h2 : l.Pairwise (fun a b : K => stop a < start b ∧ up (stop a) ≠ some (start b)))
    (h3 : ∀ p, (∃ k ∈ l, Mem p k) ↔ P p) (i : Interval I) : MaximalRun P i ↔ ∃ k ∈ l, SameInterval k i := by
  have hrun : ∀ k ∈ l, MaximalRun P (⟨start k, stop k⟩ : Interval I) := by
    intro k hk
    have hv := h1 k hk
    refine maximalRun_of hv (fun p hp => (h3 p).1 ⟨k, hk, hp⟩) (fun u hu hP => ?_) (fun u hu hP => ?_)
    · obtain ⟨k', hk', hm⟩ := (h3 u).2 hP
      have hu' := up_eq_some.1 hu
      have u1 : stop k < u := hu'.1
      have m1 := hm.1; have m2 := hm.2
      have hne : k ≠ k' := by rintro rfl; order
      rcases pairwise_or h2 hk hk' hne with h | h
      · have hle : u ≤ start k' := hu'.2 _ h.1
        have heq : u = start k' := le_antisymm hle m1
        exact h.2 (heq ▸ hu)
      · have := h.1; order
    · obtain ⟨k', hk', hm⟩ := (h3 u).2 hP
      have hu' := down_eq_some.1 hu
      have u1 : u < start k := hu'.1
      have m1 := hm.1; have m2 := hm.2
      have hne : k ≠ k' := by rintro rfl; order
      rcases pairwise_or h2 hk hk' hne with h | h
      · have := h.1; order
      · have hle : stop k' ≤ u := hu'.2 _ h.1
        have heq : stop k' = u := le_antisymm hle m2
        exact h.2 (heq ▸ up_eq_some_iff_down.2 hu)
  constructor
  · intro hi
    obtain ⟨p, hp⟩ := hi.1
    obtain ⟨k, hk, hm⟩ := (h3 p).2 (hi.2.1 p hp)
    refine ⟨k, hk, fun x => ?_⟩
    rw [MaximalRun.unique hi (hrun k hk) hp hm]; rfl
  · rintro ⟨k, hk, hs⟩
    have hv : Valid (⟨start k, stop k⟩ : Interval I) := ⟨_, le_refl _, h1 k hk⟩
    have : (⟨start k, stop k⟩ : Interval I) = i := interval_eq_of_mem_iff hv hs
    exact this ▸ hrun k hk

theorem Gqdit.RepW.gapsWith {g : Gqdit K D} {f : I → Option (Finset D)} (hr : RepW g f) (d : D) {q : Q} (hq : Valid q) :
    ∃ l : List K, g.gapsWithIdentifier d q = .ok l ∧ Ascending l ∧
      ∀ i : Interval I, MaximalRun (GapWith f d q) i ↔ ∃ k ∈ l, SameInterval k i := by
  have hch : Chain g.inner.inner := wf_iff_chain.1 hr.wf
  have hq' := valid_iff.1 hq
  have hvs : ∀ s : Finset D, validIdentifier d s = true ↔ ∀ x ∈ s, x = d := fun s => by
    rw [validIdentifier_iff, Finset.subset_iff]; simp
  have hF : ∀ x, FreeFor f d x ↔ ∃ e ∈ g.inner.inner, Mem x e.1 ∧ validIdentifier d e.2 = true := by
    intro x
    constructor
    · rintro ⟨s, hs, hd⟩
      obtain ⟨e, he, hp, rfl⟩ := (hr.at_iff x s).2 hs
      exact ⟨e, he, hp, (hvs _).2 hd⟩
    · rintro ⟨e, he, hp, hv⟩
      exact ⟨e.2, (hr.at_iff x e.2).1 ⟨e, he, hp, rfl⟩, (hvs _).1 hv⟩
  have hB : ∀ x, TakenFor f d x ↔ ∃ e ∈ g.inner.inner, Mem x e.1 ∧ validIdentifier d e.2 = false := by
    intro x
    have hvf : ∀ s : Finset D, validIdentifier d s = false ↔ ∃ i ∈ s, i ≠ d := fun s => by
      rw [← Bool.not_eq_true, hvs]; push Not; rfl
    constructor
    · rintro ⟨s, hs, hd⟩
      obtain ⟨e, he, hp, rfl⟩ := (hr.at_iff x s).2 hs
      exact ⟨e, he, hp, (hvf _).2 hd⟩
    · rintro ⟨e, he, hp, hv⟩
      exact ⟨e.2, (hr.at_iff x e.2).1 ⟨e, he, hp, rfl⟩, (hvf _).1 hv⟩
  obtain ⟨l, h1, h2, h3, h4⟩ := Gqdit.gapsWith_exact hch d hq' hF hB
  refine ⟨l, h1, ascending_iff.2 ⟨h2, h3.imp (fun h => h.1)⟩, maximalRuns_of_list h2 h3 (fun p => (h4 p).trans ?_)⟩
  unfold GapWith
  have e1 : ∀ z : I, z ≤ start q ↔ ∀ y, Mem y q → z ≤ y :=
    fun z => ⟨fun h y hy => le_trans h hy.1, fun h => h _ ⟨le_refl _, hq'⟩⟩
  have e2 : ∀ z : I, stop q ≤ z ↔ ∀ y, Mem y q → y ≤ z :=
    fun z => ⟨fun h y hy => le_trans hy.2 h, fun h => h _ ⟨hq', le_refl _⟩⟩
  have e3 : ∀ b : I, start q < b ↔ ∃ y, Mem y q ∧ y < b :=
    fun b => ⟨fun h => ⟨_, ⟨le_refl _, hq'⟩, h⟩, fun ⟨y, hy, h⟩ => lt_of_le_of_lt hy.1 h⟩
  have e4 : ∀ b : I, b < stop q ↔ ∃ y, Mem y q ∧ b < y :=
    fun b => ⟨fun h => ⟨_, ⟨hq', le_refl _⟩, h⟩, fun ⟨y, hy, h⟩ => lt_of_lt_of_le h hy.2⟩
  simp only [e1, e2, e3, e4]

/-- **C72**: `gaps_with_identifier(d, q)` on a `Gqdit` with any holes, exactly: it lists, in ascending order, the maximal runs of
the points that `GapWith` describes. -/
theorem C72_gaps_with_identifier_exact {h : GqProg I K D} (hf : h.Fine) (d : D) {q : Q} (hq : Valid q) :
    ∃ (g : Gqdit K D) (l : List K), evalProg h = .ok g ∧ g.gapsWithIdentifier d q = .ok l ∧ Ascending l ∧
      ∀ i : Interval I, MaximalRun (GapWith h.contents d q) i ↔ ∃ k ∈ l, SameInterval k i := by
  obtain ⟨g, hg, hr⟩ := evalProg_rep hf
  obtain ⟨l, h1, h2, h3⟩ := hr.gapsWith d hq
  exact ⟨g, l, hg, h1, h2, h3⟩

/-- the specification on a concrete `Gqdit`: with `20..=255` holding `1` and `5..=9` holding nothing, the query `7..=8` for
identifier `1` reaches over the hole `10..=19`, and the query `12..=15`, in the hole, has the two runs beside it -/
example : let h : GqProg Demo.U8 (Interval Demo.U8) Nat := .deserialized [(Demo.iv 20 255, {1}), (Demo.iv 5 9, ∅)]
    h.Fine ∧ MaximalRun (GapWith h.contents 1 (Demo.iv 7 8)) (Demo.iv 5 255) ∧
    MaximalRun (GapWith h.contents 1 (Demo.iv 12 15)) (Demo.iv 5 9) ∧
    MaximalRun (GapWith h.contents 1 (Demo.iv 12 15)) (Demo.iv 20 255) := by
  intro h
  have hf : h.Fine := by
    constructor
    · intro e he
      have : e = (Demo.iv 20 255, {1}) ∨ e = (Demo.iv 5 9, ∅) := by simpa using he
      rcases this with rfl | rfl <;> exact valid_iff.2 (by decide)
    · simp only [List.pairwise_cons, List.mem_singleton, forall_eq, List.not_mem_nil, false_implies, implies_true, List.Pairwise.nil,
        and_true]
      rw [overlap_iff (by decide) (by decide)]; decide
  obtain ⟨g, l, e1, e2, -, e3⟩ := C72_gaps_with_identifier_exact hf 1 (q := Demo.iv 7 8) (valid_iff.2 (by decide))
  obtain ⟨g', l', f1, f2, -, f3⟩ := C72_gaps_with_identifier_exact hf 1 (q := Demo.iv 12 15) (valid_iff.2 (by decide))
  have hg : evalProg h = .ok (⟨⟨[(Demo.iv 5 9, ∅), (Demo.iv 20 255, {1})]⟩⟩ : Gqdit (Interval Demo.U8) Nat) := rfl
  rw [hg] at e1 f1
  cases e1; cases f1
  have hl : l = [Demo.iv 5 255] := by
    have : (Except.ok l : Res (List (Interval Demo.U8))) = .ok [Demo.iv 5 255] := by rw [← e2]; decide
    injection this
  have hl' : l' = [Demo.iv 5 9, Demo.iv 20 255] := by
    have : (Except.ok l' : Res (List (Interval Demo.U8))) = .ok [Demo.iv 5 9, Demo.iv 20 255] := by rw [← f2]; decide
    injection this
  subst hl hl'
  exact ⟨hf, (e3 _).2 ⟨_, by simp, fun _ => Iff.rfl⟩, (f3 _).2 ⟨Demo.iv 5 9, by simp, fun _ => Iff.rfl⟩,
    (f3 _).2 ⟨Demo.iv 20 255, by simp, fun _ => Iff.rfl⟩⟩

end Nodit
