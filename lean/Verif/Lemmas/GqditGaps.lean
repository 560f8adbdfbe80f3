import Verif.Lemmas.Gqdit
/-!
# `Gqdit`: gap queries
-/
set_option linter.unusedSectionVars false
namespace Nodit
open Spec PointType NoditMap

variable {I K Q V D : Type} [PointType I] [IntervalType I K] [IntervalType I Q]
  [LawfulPoint I] [LawfulInterval I K]

theorem maximalRun_of {P : I → Prop} {i : Interval I} (hv : i.start ≤ i.stop) (hP : ∀ p, Mem p i → P p)
    (hu : ∀ u, up i.stop = some u → ¬ P u) (hd : ∀ u, down i.start = some u → ¬ P u) : MaximalRun P i := by
  refine ⟨⟨i.start, le_refl _, hv⟩, hP, ?_⟩
  rintro j hj ⟨x, ⟨hx1, hx2⟩, ⟨hx3, hx4⟩⟩ p ⟨hp1, hp2⟩
  simp only [start, stop] at hx1 hx2 hx3 hx4 hp1 hp2
  constructor
  · by_contra hlt
    simp only [start, not_le] at hlt
    obtain ⟨u, h1, h2, h3, h4⟩ := down_exists hlt
    exact hd u h1 (hj u ⟨by simp only [start]; order, by simp only [stop]; order⟩)
  · by_contra hlt
    simp only [stop, not_le] at hlt
    obtain ⟨u, h1, h2, h3, h4⟩ := up_exists hlt
    exact hu u h1 (hj u ⟨by simp only [start]; order, by simp only [stop]; order⟩)

theorem ii_ok {a b : I} (h : a ≤ b) : ii a b = .ok ⟨a, b⟩ := by
  unfold ii mkChecked; rw [invalidIntervalPanic_ok (q := (⟨a, b⟩ : Interval I)) h]; rfl

theorem pairwise_or {α : Type} {R : α → α → Prop} {l : List α} (h : l.Pairwise R) {a b : α} (ha : a ∈ l) (hb : b ∈ l)
    (hne : a ≠ b) : R a b ∨ R b a := by
  induction l with
  | nil => simp at ha
  | cons x xs ih =>
    obtain ⟨h1, h2⟩ := List.pairwise_cons.1 h
    rcases List.mem_cons.1 ha with rfl | ha' <;> rcases List.mem_cons.1 hb with rfl | hb'
    · exact absurd rfl hne
    · exact Or.inl (h1 b hb')
    · exact Or.inr (h1 a ha')
    · exact ih h2 ha' hb'

/-- the final `coalesce` of `gaps_with_identifier` -/
theorem coalesceTouch {x : K} {xs : List K} (h : ChainK (x :: xs)) :
    ∃ rs, coalesceFrom (fun x y => do
        if ← touchesOrdered x y then pure (.ok (ofInterval (← mergeOrdered x y) : K)) else pure (.error (x, y))) x xs
        = (.ok rs : Res (List K)) ∧
      (∀ r ∈ rs, start r ≤ stop r ∧ start x ≤ start r) ∧
      rs.Pairwise (fun a b => stop a < start b ∧ up (stop a) ≠ some (start b)) ∧
      (∀ k ∈ x :: xs, ∃ r ∈ rs, start r ≤ start k ∧ stop k ≤ stop r) ∧
      (∀ r ∈ rs, ∀ p, Mem p r → ∃ k ∈ x :: xs, Mem p k) ∧
      ((∀ k ∈ x :: xs, ∃ i : Interval I, k = ofInterval i) → ∀ r ∈ rs, ∃ i : Interval I, r = ofInterval i) := by
  induction xs generalizing x with
  | nil =>
    refine ⟨[x], rfl, ?_, by simp, ?_, ?_, ?_⟩
    · simp [h.1 x (by simp)]
    · simp
    · simp
    · simp
  | cons y ys ih =>
    have hx := h.1 x (by simp)
    have hy := h.1 y (by simp)
    obtain ⟨hlt, htail⟩ := List.pairwise_cons.1 h.2
    have hxy := hlt y (by simp)
    obtain ⟨dn, hd1, hd2, hd3, hd4⟩ := down_exists hxy
    obtain ⟨hylt, hys⟩ := List.pairwise_cons.1 htail
    have htouch : touchesOrdered x y = .ok (stop x == dn) := by
      simp [touchesOrdered, hd1, unwrap, bind, Except.bind, pure, Except.pure]
    have hty : ChainK (y :: ys) := ⟨fun k hk => h.1 k (by simp only [List.mem_cons] at hk ⊢; tauto), htail⟩
    by_cases ht : stop x = dn
    · have hm : (mergeOrdered x y : Res (Interval I)) = .ok ⟨start x, stop y⟩ := ii_ok (by order)
      have hz : ChainK ((ofInterval (⟨start x, stop y⟩ : Interval I) : K) :: ys) := by
        refine ⟨?_, List.pairwise_cons.2 ⟨?_, hys⟩⟩
        · intro k hk
          rcases List.mem_cons.1 hk with rfl | hk
          · rw [LawfulInterval.start_of, LawfulInterval.stop_of]; show start x ≤ stop y; order
          · exact h.1 k (by simp [hk])
        · intro k hk; rw [LawfulInterval.stop_of]; exact hylt k hk
      obtain ⟨rs, e1, e2, e3, e4, e5, e6⟩ := ih hz
      refine ⟨rs, ?_, ?_, e3, ?_, ?_, ?_⟩
      · rw [coalesceFrom]
        simp only [htouch, ht, hm, bind, Except.bind, pure, Except.pure, beq_self_eq_true, if_true]
        exact e1
      · intro r hr
        have := e2 r hr
        rw [LawfulInterval.start_of] at this
        exact this
      · intro k hk
        obtain ⟨r, hr, h1, h2⟩ := e4 _ (List.mem_cons_self ..)
        rw [LawfulInterval.start_of] at h1; rw [LawfulInterval.stop_of] at h2
        simp only at h1 h2
        rcases List.mem_cons.1 hk with rfl | hk
        · exact ⟨r, hr, h1, by order⟩
        · rcases List.mem_cons.1 hk with rfl | hk
          · exact ⟨r, hr, by order, h2⟩
          · exact e4 k (by simp [hk])
      · intro r hr p hp
        obtain ⟨k, hk, hpk⟩ := e5 r hr p hp
        rcases List.mem_cons.1 hk with rfl | hk
        · have := mem_ofInterval.1 hpk
          rcases le_or_gt p (stop x) with hps | hps
          · exact ⟨x, by simp, this.1, hps⟩
          · refine ⟨y, by simp, ?_, this.2⟩
            by_contra hc
            have := (hd4 p).1 (not_le.1 hc)
            order
        · exact ⟨k, by simp [hk], hpk⟩
      · intro hk r hr
        refine e6 (fun k hk' => ?_) r hr
        rcases List.mem_cons.1 hk' with rfl | hk'
        · exact ⟨_, rfl⟩
        · exact hk k (by simp [hk'])
    · obtain ⟨rs, e1, e2, e3, e4, e5, e6⟩ := ih hty
      have ht' : (stop x == dn) = false := by simpa using ht
      refine ⟨x :: rs, ?_, ?_, ?_, ?_, ?_, ?_⟩
      · rw [coalesceFrom]
        simp only [htouch, ht', bind, Except.bind, pure, Except.pure, if_false, Bool.false_eq_true]
        simp only [bind, Except.bind, pure, Except.pure] at e1
        rw [e1]
      · intro r hr
        rcases List.mem_cons.1 hr with rfl | hr
        · exact ⟨hx, le_refl _⟩
        · obtain ⟨h1, h2⟩ := e2 r hr
          exact ⟨h1, by order⟩
      · refine List.pairwise_cons.2 ⟨fun r hr => ?_, e3⟩
        obtain ⟨h1, h2⟩ := e2 r hr
        refine ⟨by order, fun hc => ht ?_⟩
        have h3 := (up_eq_some.1 hc).2 (start y) hxy
        have : start r = start y := le_antisymm h3 h2
        rw [this, up_eq_some_iff_down, hd1] at hc
        injection hc with hc; exact hc.symm
      · intro k hk
        rcases List.mem_cons.1 hk with rfl | hk
        · exact ⟨k, by simp, le_refl _, le_refl _⟩
        · obtain ⟨r, hr, h1⟩ := e4 k hk
          exact ⟨r, by simp [hr], h1⟩
      · intro r hr p hp
        rcases List.mem_cons.1 hr with rfl | hr
        · exact ⟨r, by simp, hp⟩
        · obtain ⟨k, hk, hpk⟩ := e5 r hr p hp
          exact ⟨k, List.mem_cons_of_mem _ hk, hpk⟩
      · intro hk r hr
        rcases List.mem_cons.1 hr with rfl | hr
        · exact hk _ (by simp)
        · exact e6 (fun k hk' => hk k (List.mem_cons_of_mem _ hk')) r hr

/-- pieces of the wanted runs, coalesced where they touch, are the wanted runs -/
theorem coalesce_runs {P : I → Prop} {q : Q} {ls : List K} (hch : ChainK ls)
    (hof : ∀ k ∈ ls, ∃ i : Interval I, k = ofInterval i) (hP : ∀ k ∈ ls, ∀ p, Mem p k → P p)
    (hq : ∀ k ∈ ls, Overlap k q) (hcov : ∀ p, P p → Mem p q → ∃ k ∈ ls, Mem p k)
    (hup : ∀ k ∈ ls, ∀ u, up (stop k) = some u → P u → ∃ k' ∈ ls, Mem u k')
    (hdn : ∀ k ∈ ls, ∀ u, down (start k) = some u → P u → ∃ k' ∈ ls, Mem u k') :
    ∃ rs, coalesce (fun x y => do
        if ← touchesOrdered x y then pure (.ok (ofInterval (← mergeOrdered x y) : K)) else pure (.error (x, y))) ls
        = (.ok rs : Res (List K)) ∧
      ListsIntervals rs (fun i => MaximalRun P i ∧ Overlap i q) := by
  cases ls with
  | nil =>
    refine ⟨[], rfl, ⟨by simp, by simp⟩, fun k => ⟨by simp, ?_⟩⟩
    rintro ⟨i, rfl, hi, p, hp, hpq⟩
    obtain ⟨k, hk, -⟩ := hcov p (hi.2.1 p hp) hpq
    simp at hk
  | cons x xs =>
    obtain ⟨rs, e1, e2, e3, e4, e5, e6⟩ := coalesceTouch hch
    have e6 := e6 hof
    have hchr : ChainK rs := ⟨fun r hr => (e2 r hr).1, e3.imp (fun h => h.1)⟩
    -- a point of two runs
    have huniq : ∀ a ∈ rs, ∀ b ∈ rs, ∀ p, Mem p a → Mem p b → a = b := by
      intro a ha b hb p hpa hpb
      by_contra hne
      have := pairwise_or e3 ha hb hne
      have h1 := hpa.1; have h2 := hpa.2; have h3 := hpb.1; have h4 := hpb.2
      rcases this with ⟨h, -⟩ | ⟨h, -⟩ <;> order
    have hnot : ∀ a ∈ rs, ∀ b ∈ rs, up (stop a) ≠ some (start b) := by
      intro a ha b hb hc
      by_cases hne : a = b
      · subst hne
        have := (e2 a ha).1; have := (up_eq_some.1 hc).1; order
      · have := pairwise_or e3 ha hb hne
        rcases this with ⟨_, h⟩ | ⟨h, _⟩
        · exact h hc
        · have := (e2 a ha).1; have := (e2 b hb).1; have := (up_eq_some.1 hc).1; order
    have hmax : ∀ r ∈ rs, ∀ i : Interval I, r = ofInterval i → MaximalRun P i := by
      rintro r hr i rfl
      have hv := (e2 _ hr).1
      have hs : start (ofInterval i : K) = i.start := LawfulInterval.start_of i
      have ht : stop (ofInterval i : K) = i.stop := LawfulInterval.stop_of i
      refine maximalRun_of (by rw [hs, ht] at hv; exact hv) (fun p hp => ?_) (fun u hu hPu => ?_) (fun u hu hPu => ?_)
      · obtain ⟨k, hk, hpk⟩ := e5 _ hr p (mem_ofInterval.2 hp)
        exact hP k hk p hpk
      · rw [← ht] at hu
        obtain ⟨k, hk, hpk⟩ := e5 _ hr (stop (ofInterval i : K)) ⟨hv, le_refl _⟩
        obtain ⟨r1, hr1, h1, h2⟩ := e4 k hk
        have : r1 = ofInterval i := huniq r1 hr1 _ hr (stop (ofInterval i : K))
          ⟨le_trans h1 hpk.1, le_trans hpk.2 h2⟩ ⟨hv, le_refl _⟩
        have hke : stop k = stop (ofInterval i : K) := le_antisymm (this ▸ h2) hpk.2
        obtain ⟨k', hk', huk⟩ := hup k hk u (by rw [hke]; exact hu) hPu
        obtain ⟨r2, hr2, h3, h4⟩ := e4 k' hk'
        have hu' := up_eq_some.1 hu
        have hru : Mem u r2 := ⟨le_trans h3 huk.1, le_trans huk.2 h4⟩
        have : start r2 = u := by
          refine le_antisymm hru.1 (hu'.2 _ ?_)
          by_contra hc
          have := huniq r2 hr2 _ hr (stop (ofInterval i : K)) ⟨not_lt.1 hc, le_trans hu'.1.le hru.2⟩ ⟨hv, le_refl _⟩
          subst this
          exact absurd hru.2 (not_le.2 hu'.1)
        exact hnot _ hr r2 hr2 (by rw [this]; exact hu)
      · rw [← hs] at hu
        obtain ⟨k, hk, hpk⟩ := e5 _ hr (start (ofInterval i : K)) ⟨le_refl _, hv⟩
        obtain ⟨r1, hr1, h1, h2⟩ := e4 k hk
        have : r1 = ofInterval i := huniq r1 hr1 _ hr (start (ofInterval i : K))
          ⟨le_trans h1 hpk.1, le_trans hpk.2 h2⟩ ⟨le_refl _, hv⟩
        have hke : start k = start (ofInterval i : K) := le_antisymm hpk.1 (this ▸ h1)
        obtain ⟨k', hk', huk⟩ := hdn k hk u (by rw [hke]; exact hu) hPu
        obtain ⟨r2, hr2, h3, h4⟩ := e4 k' hk'
        have hu' := down_eq_some.1 hu
        have hru : Mem u r2 := ⟨le_trans h3 huk.1, le_trans huk.2 h4⟩
        have : stop r2 = u := by
          refine le_antisymm (hu'.2 _ ?_) hru.2
          by_contra hc
          have := huniq r2 hr2 _ hr (start (ofInterval i : K)) ⟨le_trans hru.1 hu'.1.le, not_lt.1 hc⟩ ⟨le_refl _, hv⟩
          subst this
          exact absurd hru.1 (not_le.2 hu'.1)
        exact hnot r2 hr2 _ hr (by rw [this, up_eq_some_iff_down]; exact hu)
    have hmeet : ∀ r ∈ rs, Overlap r q := by
      intro r hr
      have hv := (e2 _ hr).1
      obtain ⟨k, hk, hpk⟩ := e5 _ hr (start r) ⟨le_refl _, hv⟩
      obtain ⟨r1, hr1, h1, h2⟩ := e4 k hk
      have : r1 = r := huniq r1 hr1 _ hr (start r) ⟨le_trans h1 hpk.1, le_trans hpk.2 h2⟩ ⟨le_refl _, hv⟩
      subst this
      obtain ⟨p, hp, hpq⟩ := hq k hk
      exact ⟨p, ⟨le_trans h1 hp.1, le_trans hp.2 h2⟩, hpq⟩
    refine ⟨rs, e1, ascending_iff.2 hchr, fun k => ⟨fun hk => ?_, ?_⟩⟩
    · obtain ⟨i, rfl⟩ := e6 k hk
      obtain ⟨p, hp, hpq⟩ := hmeet _ hk
      exact ⟨i, rfl, hmax _ hk i rfl, p, mem_ofInterval.1 hp, hpq⟩
    · rintro ⟨i, rfl, hi, p, hp, hpq⟩
      obtain ⟨k, hk, hpk⟩ := hcov p (hi.2.1 p hp) hpq
      obtain ⟨r, hr, h1, h2⟩ := e4 k hk
      obtain ⟨j, rfl⟩ := e6 r hr
      have := MaximalRun.unique hi (hmax _ hr j rfl) hp (mem_ofInterval.1 (show Mem p (ofInterval j : K) from ⟨le_trans h1 hpk.1, le_trans hpk.2 h2⟩))
      rw [this]; exact hr

theorem coalesceRight {x : K} {xs : List K} (h : ChainK (x :: xs)) :
    ∃ k, coalesceFrom (fun x y => do pure (.ok (ofInterval (← mergeOrdered x y) : K))) x xs = (.ok [k] : Res (List K)) ∧
      start k = start x ∧ (∀ z ∈ x :: xs, stop z ≤ stop k) ∧ (∃ z ∈ x :: xs, stop z = stop k) ∧
      ((∃ i : Interval I, x = ofInterval i) → ∃ i : Interval I, k = ofInterval i) := by
  induction xs generalizing x with
  | nil => exact ⟨x, rfl, rfl, by simp, by simp, id⟩
  | cons y ys ih =>
    have hxv := h.1 x (by simp)
    have hyv := h.1 y (by simp)
    obtain ⟨hlt, htail⟩ := List.pairwise_cons.1 h.2
    have hxy := hlt y (by simp)
    obtain ⟨hylt, hys⟩ := List.pairwise_cons.1 htail
    have hm : (mergeOrdered x y : Res (Interval I)) = .ok ⟨start x, stop y⟩ := ii_ok (by order)
    have hz : ChainK ((ofInterval (⟨start x, stop y⟩ : Interval I) : K) :: ys) := by
      refine ⟨?_, List.pairwise_cons.2 ⟨?_, hys⟩⟩
      · intro k hk
        rcases List.mem_cons.1 hk with rfl | hk
        · rw [start_of, stop_of]; show start x ≤ stop y; order
        · exact h.1 k (by simp [hk])
      · intro k hk; rw [stop_of]; exact hylt k hk
    obtain ⟨k, e1, e2, e3, e4, e5⟩ := ih hz
    rw [start_of] at e2
    have hky := e3 _ (List.mem_cons_self ..)
    rw [stop_of] at hky
    simp only at hky
    refine ⟨k, ?_, e2, ?_, ?_, fun _ => e5 ⟨_, rfl⟩⟩
    · rw [coalesceFrom]
      simp only [hm, bind, Except.bind, pure, Except.pure] at e1 ⊢
      exact e1
    · intro z hz
      rcases List.mem_cons.1 hz with rfl | hz
      · order
      · rcases List.mem_cons.1 hz with rfl | hz
        · exact hky
        · exact e3 z (by simp [hz])
    · obtain ⟨z, hz, hzk⟩ := e4
      rcases List.mem_cons.1 hz with rfl | hz
      · rw [stop_of] at hzk; exact ⟨y, by simp, hzk⟩
      · exact ⟨z, by simp [hz], hzk⟩

theorem coalesceLeft {x : K} {xs : List K} (hv : ∀ k ∈ x :: xs, start k ≤ stop k)
    (h : (x :: xs).Pairwise (fun a b => stop b < start a)) :
    ∃ k, coalesceFrom (fun x y => do pure (.ok (ofInterval (← mergeOrdered y x) : K))) x xs = (.ok [k] : Res (List K)) ∧
      stop k = stop x ∧ (∀ z ∈ x :: xs, start k ≤ start z) ∧ (∃ z ∈ x :: xs, start z = start k) ∧
      ((∃ i : Interval I, x = ofInterval i) → ∃ i : Interval I, k = ofInterval i) := by
  induction xs generalizing x with
  | nil => exact ⟨x, rfl, rfl, by simp, by simp, id⟩
  | cons y ys ih =>
    have hxv := hv x (by simp)
    have hyv := hv y (by simp)
    obtain ⟨hlt, htail⟩ := List.pairwise_cons.1 h
    have hxy := hlt y (by simp)
    obtain ⟨hylt, hys⟩ := List.pairwise_cons.1 htail
    have hm : (mergeOrdered y x : Res (Interval I)) = .ok ⟨start y, stop x⟩ := ii_ok (by order)
    obtain ⟨k, e1, e2, e3, e4, e5⟩ := ih (x := ofInterval ⟨start y, stop x⟩) (by
        intro k hk
        rcases List.mem_cons.1 hk with rfl | hk
        · rw [start_of, stop_of]; show start y ≤ stop x; order
        · exact hv k (by simp [hk])) (List.pairwise_cons.2 ⟨by
        intro k hk; rw [start_of]; exact hylt k hk, hys⟩)
    rw [stop_of] at e2
    have hky := e3 _ (List.mem_cons_self ..)
    rw [start_of] at hky
    simp only at hky
    refine ⟨k, ?_, e2, ?_, ?_, fun _ => e5 ⟨_, rfl⟩⟩
    · rw [coalesceFrom]
      simp only [hm, bind, Except.bind, pure, Except.pure] at e1 ⊢
      exact e1
    · intro z hz
      rcases List.mem_cons.1 hz with rfl | hz
      · order
      · rcases List.mem_cons.1 hz with rfl | hz
        · exact hky
        · exact e3 z (by simp [hz])
    · obtain ⟨z, hz, hzk⟩ := e4
      rcases List.mem_cons.1 hz with rfl | hz
      · rw [start_of] at hzk; exact ⟨y, by simp, hzk⟩
      · exact ⟨z, by simp [hz], hzk⟩

theorem validIdentifier_iff [DecidableEq D] {d : D} {s : Finset D} : validIdentifier d s = true ↔ s ⊆ {d} := by
  unfold validIdentifier
  rw [Finset.subset_singleton_iff]
  simp only [Bool.or_eq_true, decide_eq_true_eq, Bool.and_eq_true, beq_iff_eq]
  refine or_congr Iff.rfl ⟨fun ⟨h1, h2⟩ => ?_, fun h => by simp [h]⟩
  obtain ⟨a, rfl⟩ := Finset.card_eq_one.1 h1
  rw [Finset.mem_singleton.1 h2]

namespace Gqdit
variable [DecidableEq D]

theorem Rep.entry {g : Gqdit K D} {f : I → Finset D} (h : Rep g f) (p : I) :
    ∃ e ∈ g.inner.inner, Mem p e.1 ∧ e.2 = f p := (h.at_iff p (f p)).2 rfl

theorem Rep.val {g : Gqdit K D} {f : I → Finset D} (h : Rep g f) {e : K × Finset D} (he : e ∈ g.inner.inner) {p : I}
    (hp : Mem p e.1) : f p = e.2 := (h.at_iff p e.2).1 ⟨e, he, hp, rfl⟩

/-- an entry is the maximal run of its value -/
theorem Rep.maximal {g : Gqdit K D} {f : I → Finset D} (h : Rep g f) {i : Interval I} {v : Finset D}
    (he : ((ofInterval i : K), v) ∈ g.inner.inner) : MaximalRun (fun p => f p = v) i := by
  have hch : Chain g.inner.inner := wf_iff_chain.1 h.wf
  have hv := hch.1 _ he
  simp only [start_of, stop_of] at hv
  refine maximalRun_of hv (fun p hp => h.val he (mem_ofInterval.2 hp)) (fun u hu hf => ?_) (fun u hu hf => ?_)
  · obtain ⟨e, he', hue, hev⟩ := h.entry u
    have hu' := up_eq_some.1 hu
    have hev' := hch.1 _ he'
    have hne : ((ofInterval i : K), v) ≠ e := by
      rintro rfl
      have := hue.2; rw [stop_of] at this
      exact absurd this (not_le.2 hu'.1)
    rcases hch.apart he he' hne with hlt | hlt
    · simp only [stop_of] at hlt
      have : start e.1 = u := le_antisymm hue.1 (hu'.2 _ hlt)
      refine h.noMerge _ he _ he' ((touch_iff (by simpa using hv) hev').2 (Or.inl ?_)) (by simp [hev, hf])
      simp only [stop_of]; rw [this]; exact hu
    · simp only [start_of] at hlt
      have := hue.2; have := hu'.1; order
  · obtain ⟨e, he', hue, hev⟩ := h.entry u
    have hu' := down_eq_some.1 hu
    have hev' := hch.1 _ he'
    have hne : ((ofInterval i : K), v) ≠ e := by
      rintro rfl
      have := hue.1; rw [start_of] at this
      exact absurd this (not_le.2 hu'.1)
    rcases hch.apart he he' hne with hlt | hlt
    · simp only [stop_of] at hlt
      have := hue.1; have := hu'.1; order
    · simp only [start_of] at hlt
      have : stop e.1 = u := le_antisymm (hu'.2 _ hlt) hue.2
      refine h.noMerge _ he _ he' ((touch_iff (by simpa using hv) hev').2 (Or.inr ?_)) (by simp [hev, hf])
      simp only [start_of]; rw [this, up_eq_some_iff_down]; exact hu

theorem Rep.gapsNoIdentifier {g : Gqdit K D} {f : I → Finset D} (h : Rep g f) {q : Q} (hq : Valid q) :
    ∃ l, g.gapsNoIdentifier q = .ok l ∧ ListsIntervals l (fun i => MaximalRun (fun p => f p = ∅) i ∧ Overlap i q) := by
  have hch : Chain g.inner.inner := wf_iff_chain.1 h.wf
  have hq' := valid_iff.1 hq
  refine ⟨_, by
    unfold Gqdit.gapsNoIdentifier
    rw [invalidIntervalPanic_ok hq', overlapping_ok hch hq']
    rfl, ?_, fun k => ?_⟩
  · rw [ascending_iff]
    have := (hch.filter (ovl q)).filter (fun e => decide (e.2 = ∅))
    refine ⟨?_, List.pairwise_map.2 this.2⟩
    intro k hk
    obtain ⟨e, he, rfl⟩ := List.mem_map.1 hk
    exact this.1 e he
  · simp only [List.mem_map, List.mem_filter, decide_eq_true_eq]
    constructor
    · rintro ⟨e, ⟨⟨he, ho⟩, hv⟩, rfl⟩
      obtain ⟨i, hi⟩ := h.keys e he
      obtain ⟨k, v⟩ := e
      simp only at hi hv; subst hi hv
      obtain ⟨p, hp, hpq⟩ := (ovl_iff hq' (hch.1 _ he)).1 ho
      exact ⟨i, rfl, h.maximal he, p, mem_ofInterval.1 hp, hpq⟩
    · rintro ⟨i, rfl, hi, p, hp, hpq⟩
      obtain ⟨e, he, hpe, hev⟩ := h.entry p
      obtain ⟨j, hj⟩ := h.keys e he
      obtain ⟨k, v⟩ := e
      simp only at hj hev hpe; subst hj
      rw [hi.2.1 p hp] at hev; subst hev
      have := MaximalRun.unique hi (h.maximal he) hp (mem_ofInterval.1 hpe)
      subst this
      exact ⟨_, ⟨⟨he, (ovl_iff hq' (hch.1 _ he)).2 ⟨p, hpe, hpq⟩⟩, rfl⟩, rfl⟩

/-- `expand_gaps_at_point_right` -/
theorem Rep.expandRight {g : Gqdit K D} {f : I → Finset D} (h : Rep g f) (d : D) (p : I)
    {e : K × Finset D} (he : e ∈ g.inner.inner) (hp : Mem p e.1) :
    (¬ f p ⊆ {d} ∧ g.expandGapsAtPointRight d p = .ok none) ∨
    (f p ⊆ {d} ∧ ∃ k, g.expandGapsAtPointRight d p = .ok (some k) ∧ start k = start e.1 ∧ stop e.1 ≤ stop k ∧
      (∃ i : Interval I, k = ofInterval i) ∧ (∀ x, Mem x k → f x ⊆ {d}) ∧
      (∀ u, up (stop k) = some u → ¬ f u ⊆ {d})) := by
  have hch : Chain g.inner.inner := wf_iff_chain.1 h.wf
  have hq' : start (⟨p, MAX⟩ : Interval I) ≤ stop (⟨p, MAX⟩ : Interval I) := le_max p
  have hiu : (iu p : Res (Interval I)) = .ok ⟨p, MAX⟩ := by
    unfold iu mkChecked; rw [invalidIntervalPanic_ok hq']; rfl
  have hval : ∀ e ∈ g.inner.inner, ∀ x, Mem x e.1 → (f x ⊆ {d} ↔ validIdentifier d e.2 = true) := by
    intro e he x hx; rw [h.val he hx, validIdentifier_iff]
  unfold Gqdit.expandGapsAtPointRight
  rw [hiu]
  simp only [bind, Except.bind, overlapping_ok hch hq', pure, Except.pure]
  have hR : Chain (g.inner.inner.filter (ovl (⟨p, MAX⟩ : Interval I))) := hch.filter _
  have hmR : ∀ e, e ∈ g.inner.inner.filter (ovl (⟨p, MAX⟩ : Interval I)) ↔ e ∈ g.inner.inner ∧ p ≤ stop e.1 := by
    intro e
    simp only [List.mem_filter, ovl, decide_eq_true_eq, start, stop]
    exact ⟨fun ⟨h1, _, h2⟩ => ⟨h1, h2⟩, fun ⟨h1, h2⟩ => ⟨h1, le_max _, h2⟩⟩
  generalize g.inner.inner.filter (ovl (⟨p, MAX⟩ : Interval I)) = R at hR hmR
  cases R with
  | nil => exact absurd ((hmR e).2 ⟨he, hp.2⟩) (by simp)
  | cons a R =>
    have hea : a = e := by
      rcases List.mem_cons.1 ((hmR e).2 ⟨he, hp.2⟩) with rfl | hmem
      · rfl
      · have h1 := (Chain.cons.1 hR).2.1 e hmem
        have h2 := (hmR a).1 (by simp)
        have := hp.1; have := h2.2; order
    subst hea
    by_cases hv : validIdentifier d a.2 = true
    · right
      refine ⟨(hval a he p hp).2 hv, ?_⟩
      rw [List.takeWhile_cons_of_pos (p := fun e : K × Finset D => validIdentifier d e.2) hv, List.map_cons, coalesce]
      have hsplit := List.takeWhile_append_dropWhile (p := fun e : K × Finset D => validIdentifier d e.2) (l := R)
      have hT : ∀ z ∈ R.takeWhile (fun e => validIdentifier d e.2), validIdentifier d z.2 = true :=
        fun z hz => List.all_eq_true.1 (List.all_takeWhile (p := fun e : K × Finset D => validIdentifier d e.2) (l := R)) z hz
      have hU : ∀ z, (R.dropWhile (fun e => validIdentifier d e.2)).head? = some z → ¬ validIdentifier d z.2 = true := by
        intro z hz
        have := List.head?_dropWhile_not (p := fun e : K × Finset D => validIdentifier d e.2) R
        rw [hz] at this
        simpa using this
      generalize R.takeWhile (fun e => validIdentifier d e.2) = T at hsplit hT
      generalize R.dropWhile (fun e => validIdentifier d e.2) = U at hsplit hU
      subst hsplit
      rw [← List.cons_append] at hR
      obtain ⟨hcT, hcU, hTU⟩ := Chain.append.1 hR
      have hcK : ChainK (a.1 :: T.map Prod.fst) := by
        rw [← List.map_cons]
        exact ⟨fun k hk => by obtain ⟨z, hz, rfl⟩ := List.mem_map.1 hk; exact hcT.1 z hz, List.pairwise_map.2 hcT.2⟩
      obtain ⟨k, e1, e2, e3, e4, e5⟩ := coalesceRight hcK
      simp only [bind, Except.bind, pure, Except.pure] at e1
      have hstop : ∀ z ∈ a :: T, stop z.1 ≤ stop k := fun z hz => e3 z.1 (by
        rw [← List.map_cons]; exact List.mem_map_of_mem hz)
      obtain ⟨w, hw, hwk⟩ : ∃ w ∈ a :: T, stop w.1 = stop k := by
        obtain ⟨z, hz, hzk⟩ := e4
        rw [← List.map_cons] at hz
        obtain ⟨w, hw, rfl⟩ := List.mem_map.1 hz
        exact ⟨w, hw, hzk⟩
      have hin : ∀ z ∈ g.inner.inner, p ≤ stop z.1 → z ∈ a :: T ∨ z ∈ U := fun z hz hpz => by
        have := (hmR z).2 ⟨hz, hpz⟩
        rw [← List.cons_append] at this
        exact List.mem_append.1 this
      refine ⟨k, by rw [e1]; rfl, e2, hstop a (by simp), e5 (h.keys a he), ?_, ?_⟩
      · intro x hx
        obtain ⟨z, hz, hxz, -⟩ := h.entry x
        rw [hval z hz x hxz]
        have hpz : p ≤ stop z.1 := by
          by_cases hza : z = a
          · subst hza; exact hp.2
          · rcases hch.apart hz he hza with hlt | hlt
            · have := hx.1; have := hxz.2; rw [e2] at *; order
            · have := hp.2; have := hch.1 z hz; order
        rcases hin z hz hpz with hzT | hzU
        · rcases List.mem_cons.1 hzT with rfl | hzT
          · exact hv
          · exact hT z hzT
        · have := hTU w hw z hzU
          have := hx.2; have := hxz.1; order
      · intro u hu hf
        have hu' := up_eq_some.1 hu
        obtain ⟨z, hz, huz, -⟩ := h.entry u
        rw [hval z hz u huz] at hf
        have hak := hstop a (by simp)
        have hpa := hp.2
        rcases hin z hz (by have := huz.2; have := hu'.1; order) with hzT | hzU
        · have := hstop z hzT; have := huz.2; have := hu'.1; order
        · cases U with
          | nil => simp at hzU
          | cons b U =>
            have hb := hU b rfl
            rcases List.mem_cons.1 hzU with rfl | hzU
            · exact hb hf
            · have h1 := (Chain.cons.1 hcU).2.1 z hzU
              have h2 := (Chain.cons.1 hcU).1
              have h3 := hTU w hw b (by simp)
              have := hu'.2 (start b.1) (by order)
              have := huz.1
              order
    · left
      refine ⟨fun hc => hv ((hval a he p hp).1 hc), ?_⟩
      rw [List.takeWhile_cons_of_neg (p := fun e : K × Finset D => validIdentifier d e.2) hv]
      rfl

/-- `expand_gaps_at_point_left` -/
theorem Rep.expandLeft {g : Gqdit K D} {f : I → Finset D} (h : Rep g f) (d : D) (p : I)
    {e : K × Finset D} (he : e ∈ g.inner.inner) (hp : Mem p e.1) :
    (¬ f p ⊆ {d} ∧ g.expandGapsAtPointLeft d p = .ok none) ∨
    (f p ⊆ {d} ∧ ∃ k, g.expandGapsAtPointLeft d p = .ok (some k) ∧ stop k = stop e.1 ∧ start k ≤ start e.1 ∧
      (∃ i : Interval I, k = ofInterval i) ∧ (∀ x, Mem x k → f x ⊆ {d}) ∧
      (∀ u, down (start k) = some u → ¬ f u ⊆ {d})) := by
  have hch : Chain g.inner.inner := wf_iff_chain.1 h.wf
  have hq' : start (⟨MIN, p⟩ : Interval I) ≤ stop (⟨MIN, p⟩ : Interval I) := min_le p
  have hiu : (ui p : Res (Interval I)) = .ok ⟨MIN, p⟩ := by
    unfold ui mkChecked; rw [invalidIntervalPanic_ok hq']; rfl
  have hval : ∀ e ∈ g.inner.inner, ∀ x, Mem x e.1 → (f x ⊆ {d} ↔ validIdentifier d e.2 = true) := by
    intro e he x hx; rw [h.val he hx, validIdentifier_iff]
  unfold Gqdit.expandGapsAtPointLeft
  rw [hiu]
  simp only [bind, Except.bind, overlapping_ok hch hq', pure, Except.pure]
  have hR : (g.inner.inner.filter (ovl (⟨MIN, p⟩ : Interval I))).reverse.Pairwise (fun a b => stop b.1 < start a.1) :=
    List.pairwise_reverse.2 (hch.filter _).2
  have hmR : ∀ e, e ∈ (g.inner.inner.filter (ovl (⟨MIN, p⟩ : Interval I))).reverse ↔ e ∈ g.inner.inner ∧ start e.1 ≤ p := by
    intro e
    simp only [List.mem_reverse, List.mem_filter, ovl, decide_eq_true_eq, start, stop]
    exact ⟨fun ⟨h1, h2, _⟩ => ⟨h1, h2⟩, fun ⟨h1, h2⟩ => ⟨h1, h2, min_le _⟩⟩
  generalize (g.inner.inner.filter (ovl (⟨MIN, p⟩ : Interval I))).reverse = R at hR hmR
  cases R with
  | nil => exact absurd ((hmR e).2 ⟨he, hp.1⟩) (by simp)
  | cons a R =>
    have hea : a = e := by
      rcases List.mem_cons.1 ((hmR e).2 ⟨he, hp.1⟩) with rfl | hmem
      · rfl
      · have h1 := (List.pairwise_cons.1 hR).1 e hmem
        have h2 := (hmR a).1 (by simp)
        have := hp.2; have := h2.2; order
    subst hea
    by_cases hv : validIdentifier d a.2 = true
    · right
      refine ⟨(hval a he p hp).2 hv, ?_⟩
      rw [List.takeWhile_cons_of_pos (p := fun e : K × Finset D => validIdentifier d e.2) hv, List.map_cons, coalesce]
      have hsplit := List.takeWhile_append_dropWhile (p := fun e : K × Finset D => validIdentifier d e.2) (l := R)
      have hT : ∀ z ∈ R.takeWhile (fun e => validIdentifier d e.2), validIdentifier d z.2 = true :=
        fun z hz => List.all_eq_true.1 (List.all_takeWhile (p := fun e : K × Finset D => validIdentifier d e.2) (l := R)) z hz
      have hU : ∀ z, (R.dropWhile (fun e => validIdentifier d e.2)).head? = some z → ¬ validIdentifier d z.2 = true := by
        intro z hz
        have := List.head?_dropWhile_not (p := fun e : K × Finset D => validIdentifier d e.2) R
        rw [hz] at this
        simpa using this
      generalize R.takeWhile (fun e => validIdentifier d e.2) = T at hsplit hT
      generalize R.dropWhile (fun e => validIdentifier d e.2) = U at hsplit hU
      subst hsplit
      rw [← List.cons_append] at hR hmR
      obtain ⟨hcT, hcU, hTU⟩ := List.pairwise_append.1 hR
      have hvT : ∀ z ∈ a :: T, start z.1 ≤ stop z.1 := fun z hz => hch.1 z ((hmR z).1 (List.mem_append_left _ hz)).1
      have hvU : ∀ z ∈ U, start z.1 ≤ stop z.1 := fun z hz => hch.1 z ((hmR z).1 (List.mem_append_right _ hz)).1
      obtain ⟨k, e1, e2, e3, e4, e5⟩ := coalesceLeft (x := a.1) (xs := T.map Prod.fst) (by
        rw [← List.map_cons]
        intro k hk; obtain ⟨z, hz, rfl⟩ := List.mem_map.1 hk; exact hvT z hz) (by
        rw [← List.map_cons]
        exact List.pairwise_map.2 hcT)
      simp only [bind, Except.bind, pure, Except.pure] at e1
      have hstop : ∀ z ∈ a :: T, start k ≤ start z.1 := fun z hz => e3 z.1 (by
        rw [← List.map_cons]; exact List.mem_map_of_mem hz)
      obtain ⟨w, hw, hwk⟩ : ∃ w ∈ a :: T, start w.1 = start k := by
        obtain ⟨z, hz, hzk⟩ := e4
        rw [← List.map_cons] at hz
        obtain ⟨w, hw, rfl⟩ := List.mem_map.1 hz
        exact ⟨w, hw, hzk⟩
      have hin : ∀ z ∈ g.inner.inner, start z.1 ≤ p → z ∈ a :: T ∨ z ∈ U := fun z hz hpz => by
        exact List.mem_append.1 ((hmR z).2 ⟨hz, hpz⟩)
      refine ⟨k, by rw [e1]; rfl, e2, hstop a (by simp), e5 (h.keys a he), ?_, ?_⟩
      · intro x hx
        obtain ⟨z, hz, hxz, -⟩ := h.entry x
        rw [hval z hz x hxz]
        have hpz : start z.1 ≤ p := by
          by_cases hza : z = a
          · subst hza; exact hp.1
          · rcases hch.apart hz he hza with hlt | hlt
            · have := hp.1; have := hch.1 z hz; order
            · have := hx.2; have := hxz.1; rw [e2] at *; order
        rcases hin z hz hpz with hzT | hzU
        · rcases List.mem_cons.1 hzT with rfl | hzT
          · exact hv
          · exact hT z hzT
        · have := hTU w hw z hzU
          have := hx.1; have := hxz.2; order
      · intro u hu hf
        have hu' := down_eq_some.1 hu
        obtain ⟨z, hz, huz, -⟩ := h.entry u
        rw [hval z hz u huz] at hf
        have hak := hstop a (by simp)
        have hpa := hp.1
        rcases hin z hz (by have := huz.1; have := hu'.1; order) with hzT | hzU
        · have := hstop z hzT; have := huz.1; have := hu'.1; order
        · cases U with
          | nil => simp at hzU
          | cons b U =>
            have hb := hU b rfl
            rcases List.mem_cons.1 hzU with rfl | hzU
            · exact hb hf
            · have h1 := (List.pairwise_cons.1 hcU).1 z hzU
              have h2 := hvU b (by simp)
              have h3 := hTU w hw b (by simp)
              have := hu'.2 (stop b.1) (by order)
              have := huz.2
              order
    · left
      refine ⟨fun hc => hv ((hval a he p hp).1 hc), ?_⟩
      rw [List.takeWhile_cons_of_neg (p := fun e : K × Finset D => validIdentifier d e.2) hv]
      rfl


theorem Rep.gapsWithIdentifier {g : Gqdit K D} {f : I → Finset D} (h : Rep g f) (d : D) {q : Q} (hq : Valid q) :
    ∃ l, g.gapsWithIdentifier d q = .ok l ∧
      ListsIntervals l (fun i => MaximalRun (fun p => f p ⊆ {d}) i ∧ Overlap i q) := by
  have hch : Chain g.inner.inner := wf_iff_chain.1 h.wf
  have hq' := valid_iff.1 hq
  have hval : ∀ e ∈ g.inner.inner, ∀ x, Mem x e.1 → (f x ⊆ {d} ↔ validIdentifier d e.2 = true) := by
    intro e he x hx; rw [h.val he hx, validIdentifier_iff]
  obtain ⟨s, hs, hps, -⟩ := h.entry (start q)
  obtain ⟨t, ht, hpt, -⟩ := h.entry (stop q)
  have hsv := hch.1 s hs
  have htv := hch.1 t ht
  unfold Gqdit.gapsWithIdentifier
  rw [invalidIntervalPanic_ok hq', overlapping_ok hch hq']
  simp only [bind, Except.bind]
  -- the pieces strictly inside the query
  generalize hN : List.filter (fun gap =>
      !InclusiveInterval.containsPoint gap (start q) && !InclusiveInterval.containsPoint gap (stop q))
      (List.map Prod.fst (List.filter (fun e => validIdentifier d e.2) (List.filter (ovl q) g.inner.inner))) = N
  have hNch : ChainK N := by
    subst hN
    have := (hch.filter (ovl q)).filter (fun e => validIdentifier d e.2)
    refine ⟨?_, (List.pairwise_map.2 this.2).filter _⟩
    intro k hk
    obtain ⟨e, he, rfl⟩ := List.mem_map.1 (List.mem_filter.1 hk).1
    exact this.1 e he
  have hNm : ∀ k, k ∈ N ↔ ∃ e ∈ g.inner.inner, e.1 = k ∧ validIdentifier d e.2 = true ∧ start q < start e.1 ∧
      stop e.1 < stop q := by
    intro k
    subst hN
    simp only [List.mem_filter, List.mem_map, Bool.and_eq_true, Bool.not_eq_true', InclusiveInterval.containsPoint,
      Bool.and_eq_false_iff, decide_eq_false_iff_not, ge_iff_le, ovl, decide_eq_true_eq]
    constructor
    · rintro ⟨⟨e, ⟨⟨he, h1, h2⟩, h3⟩, rfl⟩, h4, h5⟩
      have := hch.1 e he
      exact ⟨e, he, rfl, h3, by rcases h4 with h4 | h4 <;> order, by rcases h5 with h5 | h5 <;> order⟩
    · rintro ⟨e, he, rfl, h3, h4, h5⟩
      have := hch.1 e he
      exact ⟨⟨e, ⟨⟨he, by order, by order⟩, h3⟩, rfl⟩, Or.inl (by order), Or.inr (by order)⟩
  -- every entry meeting the query is `s`, `t` or strictly inside
  have htri : ∀ e ∈ g.inner.inner, start e.1 ≤ stop q → start q ≤ stop e.1 →
      e = s ∨ e = t ∨ (start q < start e.1 ∧ stop e.1 < stop q) := by
    intro e he h1 h2
    by_cases hes : e = s
    · exact Or.inl hes
    by_cases het : e = t
    · exact Or.inr (Or.inl het)
    refine Or.inr (Or.inr ⟨?_, ?_⟩)
    · have := hps.1; have := hps.2
      rcases hch.apart he hs hes with hlt | hlt <;> order
    · have := hpt.1; have := hpt.2
      rcases hch.apart he ht het with hlt | hlt <;> order
  have hst : s ≠ t → stop s.1 < start t.1 := by
    intro hne
    have := hps.1; have := hpt.2
    rcases hch.apart hs ht hne with hlt | hlt
    · exact hlt
    · order
  -- an entry holding the point after / before another
  have hnext : ∀ e ∈ g.inner.inner, ∀ u, up (stop e.1) = some u →
      ∃ e' ∈ g.inner.inner, start e'.1 = u ∧ Mem u e'.1 ∧ stop e.1 < start e'.1 := by
    intro e he u hu
    have hu' := up_eq_some.1 hu
    obtain ⟨e', he', hue, -⟩ := h.entry u
    have h1 := hue.1; have h2 := hue.2; have h3 := hu'.1
    have := hch.1 e he
    have hne : e ≠ e' := by rintro rfl; order
    rcases hch.apart he he' hne with hlt | hlt
    · exact ⟨e', he', le_antisymm hue.1 (hu'.2 _ hlt), hue, hlt⟩
    · order
  have hprev : ∀ e ∈ g.inner.inner, ∀ u, down (start e.1) = some u →
      ∃ e' ∈ g.inner.inner, stop e'.1 = u ∧ Mem u e'.1 ∧ stop e'.1 < start e.1 := by
    intro e he u hu
    have hu' := down_eq_some.1 hu
    obtain ⟨e', he', hue, -⟩ := h.entry u
    have h1 := hue.1; have h2 := hue.2; have h3 := hu'.1
    have := hch.1 e he
    have hne : e' ≠ e := by rintro rfl; order
    rcases hch.apart he' he hne with hlt | hlt
    · exact ⟨e', he', le_antisymm (hu'.2 _ hlt) hue.2, hue, hlt⟩
    · order
  -- facts about the pieces strictly inside
  have hNof : ∀ k ∈ N, ∃ i : Interval I, k = ofInterval i := by
    intro k hk; obtain ⟨e, he, rfl, -⟩ := (hNm k).1 hk; exact h.keys e he
  have hNP : ∀ k ∈ N, ∀ p, Mem p k → f p ⊆ {d} := by
    intro k hk p hp; obtain ⟨e, he, rfl, hv, -⟩ := (hNm k).1 hk; exact (hval e he p hp).2 hv
  have hNq : ∀ k ∈ N, start q < start k ∧ stop k < stop q := by
    intro k hk; obtain ⟨e, he, rfl, hv, h1, h2⟩ := (hNm k).1 hk; exact ⟨h1, h2⟩
  have hNv : ∀ k ∈ N, start k ≤ stop k := hNch.1
  have hsN : ∀ k ∈ N, stop s.1 < start k := by
    intro k hk; obtain ⟨e, he, rfl, hv, h1, h2⟩ := (hNm k).1 hk
    have := hps.1; have := hch.1 e he
    have hne : s ≠ e := by rintro rfl; order
    rcases hch.apart hs he hne with hlt | hlt <;> order
  have hNt : ∀ k ∈ N, stop k < start t.1 := by
    intro k hk; obtain ⟨e, he, rfl, hv, h1, h2⟩ := (hNm k).1 hk
    have := hpt.2; have := hch.1 e he
    have hne : e ≠ t := by rintro rfl; order
    rcases hch.apart he ht hne with hlt | hlt <;> order
  have hpt1 := hpt.1; have hpt2 := hpt.2; have hps1 := hps.1; have hps2 := hps.2
  -- the runs in the case that the two end runs do not overlap
  have main : ∀ (lo : Option K) (ro : Option K), (lo ≠ none → s ≠ t) → (ro ≠ none → s ≠ t) →
      (lo = none → ¬ f (start q) ⊆ {d}) → (ro = none → ¬ f (stop q) ⊆ {d}) →
      (∀ k, lo = some k → stop k = stop s.1 ∧ start k ≤ start s.1 ∧ (∃ i : Interval I, k = ofInterval i) ∧
        (∀ x, Mem x k → f x ⊆ {d}) ∧ (∀ u, down (start k) = some u → ¬ f u ⊆ {d})) →
      (∀ k, ro = some k → start k = start t.1 ∧ stop t.1 ≤ stop k ∧ (∃ i : Interval I, k = ofInterval i) ∧
        (∀ x, Mem x k → f x ⊆ {d}) ∧ (∀ u, up (stop k) = some u → ¬ f u ⊆ {d})) →
      ∃ rs, coalesce (fun x y => do
        if ← touchesOrdered x y then pure (.ok (ofInterval (← mergeOrdered x y) : K)) else pure (.error (x, y)))
        (lo.toList ++ N ++ ro.toList) = (.ok rs : Res (List K)) ∧
        ListsIntervals rs (fun i => MaximalRun (fun p => f p ⊆ {d}) i ∧ Overlap i q) := by
    intro lo ro hlo hro hlon hron hl hr
    have hmem : ∀ k, k ∈ lo.toList ++ N ++ ro.toList ↔ lo = some k ∨ k ∈ N ∨ ro = some k := by
      intro k; simp only [List.mem_append, Option.mem_toList, or_assoc]
    -- every valid entry meeting the query is covered
    have hcov : ∀ e ∈ g.inner.inner, validIdentifier d e.2 = true → start e.1 ≤ stop q → start q ≤ stop e.1 →
        ∃ k ∈ lo.toList ++ N ++ ro.toList, start k ≤ start e.1 ∧ stop e.1 ≤ stop k := by
      intro e he hv h1 h2
      rcases htri e he h1 h2 with rfl | rfl | ⟨h3, h4⟩
      · cases hlo' : lo with
        | none => exact absurd ((hval e he _ hps).2 hv) (hlon hlo')
        | some k =>
          obtain ⟨h5, h6, -⟩ := hl k hlo'
          exact ⟨k, by simp, h6, h5.ge⟩
      · cases hro' : ro with
        | none => exact absurd ((hval e he _ hpt).2 hv) (hron hro')
        | some k =>
          obtain ⟨h5, h6, -⟩ := hr k hro'
          exact ⟨k, by simp, h5.le, h6⟩
      · exact ⟨e.1, (hmem _).2 (Or.inr (Or.inl ((hNm _).2 ⟨e, he, rfl, hv, h3, h4⟩))), le_refl _, le_refl _⟩
    -- bounds of every listed piece
    have hlv : ∀ k, lo = some k → start k ≤ stop k := fun k hk => by
      obtain ⟨h1, h2, -⟩ := hl k hk; order
    have hrv : ∀ k, ro = some k → start k ≤ stop k := fun k hk => by
      obtain ⟨h1, h2, -⟩ := hr k hk; order
    refine coalesce_runs (q := q) (ls := lo.toList ++ N ++ ro.toList) ⟨?_, ?_⟩ ?_ ?_ ?_ ?_ ?_ ?_
    · intro k hk
      rcases (hmem k).1 hk with hk | hk | hk
      · exact hlv k hk
      · exact hNv k hk
      · exact hrv k hk
    · rw [List.pairwise_append, List.pairwise_append]
      refine ⟨⟨?_, hNch.2, ?_⟩, ?_, ?_⟩
      · cases lo <;> simp
      · intro a ha b hb
        have ha : lo = some a := by simpa using ha
        obtain ⟨h1, -⟩ := hl a ha
        rw [h1]; exact hsN b hb
      · cases ro <;> simp
      · intro a ha b hb
        have hb : ro = some b := by simpa using hb
        obtain ⟨h1, -⟩ := hr b hb
        rw [h1]
        rcases List.mem_append.1 ha with ha | ha
        · have ha : lo = some a := by simpa using ha
          obtain ⟨h2, -⟩ := hl a ha
          rw [h2]; exact hst (hlo (by simp [ha]))
        · exact hNt a ha
    · intro k hk
      rcases (hmem k).1 hk with hk | hk | hk
      · exact (hl k hk).2.2.1
      · exact hNof k hk
      · exact (hr k hk).2.2.1
    · intro k hk
      rcases (hmem k).1 hk with hk | hk | hk
      · exact (hl k hk).2.2.2.1
      · exact hNP k hk
      · exact (hr k hk).2.2.2.1
    · intro k hk
      rcases (hmem k).1 hk with hk | hk | hk
      · obtain ⟨h1, h2, -⟩ := hl k hk
        exact ⟨start q, ⟨by order, by order⟩, le_refl _, hq'⟩
      · obtain ⟨h1, h2⟩ := hNq k hk
        have := hNv k hk
        exact ⟨start k, ⟨le_refl _, by order⟩, by order, by order⟩
      · obtain ⟨h1, h2, -⟩ := hr k hk
        exact ⟨stop q, ⟨by order, by order⟩, hq', le_refl _⟩
    · intro p hP hpq
      obtain ⟨e, he, hpe, -⟩ := h.entry p
      have h1 := hpe.1; have h2 := hpe.2; have h3 := hpq.1; have h4 := hpq.2
      obtain ⟨k, hk, h5, h6⟩ := hcov e he ((hval e he p hpe).1 hP) (by order) (by order)
      exact ⟨k, hk, by order, by order⟩
    · intro k hk u hu hP
      have step : ∀ e ∈ g.inner.inner, stop e.1 = stop k → start q ≤ stop e.1 → stop e.1 < stop q →
          ∃ k' ∈ lo.toList ++ N ++ ro.toList, Mem u k' := by
        intro e he hek h1 h2
        obtain ⟨e', he', h3, h4, h5⟩ := hnext e he u (by rw [hek]; exact hu)
        have h6 : u ≤ stop q := (up_eq_some.1 hu).2 _ (by rw [← hek]; exact h2)
        have := hch.1 e' he'
        obtain ⟨k', hk', h7, h8⟩ := hcov e' he' ((hval e' he' u h4).1 hP) (by order) (by order)
        exact ⟨k', hk', le_trans h7 h4.1, le_trans h4.2 h8⟩
      rcases (hmem k).1 hk with hk | hk | hk
      · obtain ⟨h1, -⟩ := hl k hk
        have := hst (hlo (by simp [hk]))
        exact step s hs h1.symm (by order) (by order)
      · obtain ⟨e, he, rfl, hv, h1, h2⟩ := (hNm k).1 hk
        have := hch.1 e he
        exact step e he rfl (by order) (by order)
      · exact absurd hP ((hr k hk).2.2.2.2 u hu)
    · intro k hk u hu hP
      have step : ∀ e ∈ g.inner.inner, start e.1 = start k → start e.1 ≤ stop q → start q < start e.1 →
          ∃ k' ∈ lo.toList ++ N ++ ro.toList, Mem u k' := by
        intro e he hek h1 h2
        obtain ⟨e', he', h3, h4, h5⟩ := hprev e he u (by rw [hek]; exact hu)
        have h6 : start q ≤ u := (down_eq_some.1 hu).2 _ (by rw [← hek]; exact h2)
        have := hch.1 e' he'
        obtain ⟨k', hk', h7, h8⟩ := hcov e' he' ((hval e' he' u h4).1 hP) (by order) (by order)
        exact ⟨k', hk', le_trans h7 h4.1, le_trans h4.2 h8⟩
      rcases (hmem k).1 hk with hk | hk | hk
      · exact absurd hP ((hl k hk).2.2.2.2 u hu)
      · obtain ⟨e, he, rfl, hv, h1, h2⟩ := (hNm k).1 hk
        have := hch.1 e he
        exact step e he rfl (by order) (by order)
      · obtain ⟨h1, -⟩ := hr k hk
        have := hst (hro (by simp [hk]))
        exact step t ht h1.symm (by order) (by order)
  rcases h.expandLeft d (start q) hs hps with ⟨hl0, hl1⟩ | ⟨hl0, kl, hl1, hl2, hl3, hl4, hl5, hl6⟩ <;>
    rcases h.expandRight d (stop q) ht hpt with ⟨hr0, hr1⟩ | ⟨hr0, kr, hr1, hr2, hr3, hr4, hr5, hr6⟩ <;>
    simp only [hl1, hr1, pure, Except.pure]
  · exact main none none (by simp) (by simp) (fun _ => hl0) (fun _ => hr0) (by simp) (by simp)
  · have hne : s ≠ t := by rintro rfl; exact hl0 ((hval s hs _ hps).2 ((hval s hs _ hpt).1 hr0))
    refine main none (some kr) (by simp) (fun _ => hne) (fun _ => hl0) (by simp) (by simp) ?_
    rintro k hk; injection hk with hk; subst hk
    exact ⟨hr2, hr3, hr4, hr5, hr6⟩
  · have hne : s ≠ t := by rintro rfl; exact hr0 ((hval s hs _ hpt).2 ((hval s hs _ hps).1 hl0))
    refine main (some kl) none (fun _ => hne) (by simp) (by simp) (fun _ => hr0) ?_ (by simp)
    rintro k hk; injection hk with hk; subst hk
    exact ⟨hl2, hl3, hl4, hl5, hl6⟩
  · by_cases hne : s = t
    · subst hne
      have hov : overlapsOrdered kl kr = true := by
        simp only [overlapsOrdered, InclusiveInterval.containsPoint, Bool.or_eq_true, Bool.and_eq_true, decide_eq_true_eq,
          ge_iff_le]
        exact Or.inl ⟨by order, by order⟩
      have hNnil : N = [] := List.eq_nil_iff_forall_not_mem.2 fun k hk => by
        have := hsN k hk; have := hNt k hk; have := hNv k hk; order
      have hle : start kl ≤ stop kr := by order
      have hm : (mergeOrdered kl kr : Res (Interval I)) = .ok ⟨start kl, stop kr⟩ := ii_ok hle
      simp only [hov, hm, if_true, hNnil, Option.toList_some, Option.toList_none, List.append_nil, coalesce, coalesceFrom, pure,
        Except.pure]
      refine ⟨_, rfl, ?_, ?_⟩
      · rw [ascending_iff]
        exact ⟨by simp [hle], by simp⟩
      · have hrun : MaximalRun (fun p => f p ⊆ {d}) (⟨start kl, stop kr⟩ : Interval I) := by
          refine maximalRun_of hle (fun p hp => ?_) (fun u hu => hr6 u hu) (fun u hu => hl6 u hu)
          have h1 : start kl ≤ p := hp.1
          have h2 : p ≤ stop kr := hp.2
          rcases le_total p (stop kl) with h3 | h3
          · exact hl5 p ⟨h1, h3⟩
          · exact hr5 p ⟨by order, h2⟩
        have hin : Mem (start q) (⟨start kl, stop kr⟩ : Interval I) := by
          constructor
          · show start kl ≤ start q; order
          · show start q ≤ stop kr; order
        intro k
        simp only [List.mem_singleton]
        constructor
        · rintro rfl
          exact ⟨_, rfl, hrun, start q, hin, le_refl _, hq'⟩
        · rintro ⟨i, rfl, hi, p, hp, hpq⟩
          have h1 := hpq.1; have h2 := hpq.2
          rw [MaximalRun.unique hi hrun hp ⟨by show start kl ≤ p; order, by show p ≤ stop kr; order⟩]
    · have hlt := hst hne
      have hov : overlapsOrdered kl kr = false := by
        simp only [overlapsOrdered, InclusiveInterval.containsPoint, Bool.or_eq_false_iff, Bool.and_eq_false_iff,
          decide_eq_false_iff_not, ge_iff_le]
        exact ⟨Or.inr (by order), Or.inr (by order)⟩
      simp only [hov, Bool.false_eq_true, if_false]
      refine main (some kl) (some kr) (fun _ => hne) (fun _ => hne) (by simp) (by simp) ?_ ?_
      · rintro k hk; injection hk with hk; subst hk
        exact ⟨hl2, hl3, hl4, hl5, hl6⟩
      · rintro k hk; injection hk with hk; subst hk
        exact ⟨hr2, hr3, hr4, hr5, hr6⟩

end Gqdit
end Nodit
