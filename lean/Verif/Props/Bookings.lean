import Verif.Props.GqditClients
/-!
# C101: bookings made through the reported gaps never collide

The protocol of the motivating use of `Gqdit` (the crate's documentation: gaps in which something with an identifier may be placed):
ask for the gaps, book any part of one of them, give bookings back. The two relations below are all the executions of the two
protocols; every call in them is a call of the modelled public functions.
-/
set_option linter.unusedSectionVars false
namespace Nodit
open Spec PointType Gqdit
variable {I K Q D : Type} [PointType I] [IntervalType I K] [IntervalType I Q] [LawfulPoint I] [LawfulInterval I K] [DecidableEq D]

/-- The exclusive protocol: bookings are placed inside intervals `gaps_no_identifier` lists, and given back with
`cut_with_identifiers`. `Agenda I B g`: such an execution has led to `g`, with `B` the bookings now held. -/
inductive Agenda (I : Type) {K D : Type} [PointType I] [IntervalType I K] [DecidableEq D] : List (D × K) → Gqdit K D → Prop
  | new {g : Gqdit K D} : Gqdit.new (I := I) = .ok g → Agenda I [] g
  /-- asked about `q`, chose the listed `gap`, booked the interval `k` inside it for `d` -/
  | book {B : List (D × K)} {g g' : Gqdit K D} {gaps : List K} {gap k : K} (d : D) (q : Interval I) : Agenda I B g →
      g.gapsNoIdentifier q = .ok gaps → gap ∈ gaps → (∀ p : I, Mem p k → Mem p gap) → g.insert (I := I) {d} k = .ok g' →
      Agenda I ((d, k) :: B) g'
  /-- gave a booking back -/
  | cancel {B B' : List (D × K)} {g g' : Gqdit K D} {d : D} {k : K} : Agenda I (B ++ (d, k) :: B') g →
      g.cutWithIdentifiers (I := I) {d} k = .ok g' → Agenda I (B ++ B') g'

/-- The protocol with owners: `d` places things inside intervals `gaps_with_identifier(d, ..)` lists, and takes its own things away
from wherever it likes with `cut_with_identifiers`. -/
inductive Owners (I : Type) {K D : Type} [PointType I] [IntervalType I K] [DecidableEq D] : Gqdit K D → Prop
  | new {g : Gqdit K D} : Gqdit.new (I := I) = .ok g → Owners I g
  | place {g g' : Gqdit K D} {gaps : List K} {gap k : K} (d : D) (q : Interval I) : Owners I g →
      g.gapsWithIdentifier d q = .ok gaps → gap ∈ gaps → (∀ p : I, Mem p k → Mem p gap) → g.insert (I := I) {d} k = .ok g' →
      Owners I g'
  | remove {g g' : Gqdit K D} (ids : Finset D) (q : Interval I) : Owners I g → g.cutWithIdentifiers ids q = .ok g' → Owners I g'

theorem eval_insert {h : GqHist I K D} {g g' : Gqdit K D} (hg : eval h = .ok g) {ids : Finset D} {k : K} (hi : g.insert ids k = .ok g') :
    Valid k ∧ eval (h.insert ids k) = .ok g' := by
  constructor
  · by_contra hk
    rw [insert_bad hk] at hi; cases hi
  · rw [eval, hg]; exact hi

theorem eval_cutWith {h : GqHist I K D} {g g' : Gqdit K D} (hg : eval h = .ok g) {ids : Finset D} {q : Q}
    (hi : g.cutWithIdentifiers (I := I) ids q = .ok g') :
    Valid q ∧ eval (h.cutWithIdentifiers ids ⟨IntervalType.start q, IntervalType.stop q⟩) = .ok g' := by
  have hv : Valid q := by
    by_contra hk
    rw [cutWith_bad hk] at hi; cases hi
  refine ⟨hv, ?_⟩
  have hv' : Valid (⟨IntervalType.start q, IntervalType.stop q⟩ : Interval I) := hv
  have hr := rep_of_eval hg
  obtain ⟨g1, h1, r1⟩ := hr.cutWith hv ids
  obtain ⟨g2, h2, r2⟩ := hr.cutWith hv' ids
  rw [hi] at h1; cases h1
  rw [eval, hg, r1.eq r2]; exact h2

/-- every execution of the protocol is a history -/
theorem Agenda.history {B : List (D × K)} {g : Gqdit K D} (ha : Agenda I B g) : ∃ h : GqHist I K D, eval h = .ok g := by
  induction ha with
  | new h => exact ⟨.new, h⟩
  | book d q _ _ _ _ hi ih =>
    obtain ⟨h, hh⟩ := ih
    exact ⟨_, (eval_insert hh hi).2⟩
  | cancel _ hi ih =>
    obtain ⟨h, hh⟩ := ih
    exact ⟨_, (eval_cutWith hh hi).2⟩

theorem Owners.history {g : Gqdit K D} (ha : Owners I g) : ∃ h : GqHist I K D, eval h = .ok g := by
  induction ha with
  | new h => exact ⟨.new, h⟩
  | place d q _ _ _ _ hi ih =>
    obtain ⟨h, hh⟩ := ih
    exact ⟨_, (eval_insert hh hi).2⟩
  | remove ids q _ hi ih =>
    obtain ⟨h, hh⟩ := ih
    exact ⟨_, (eval_cutWith hh hi).2⟩

/-- the invariant of the exclusive protocol -/
theorem Agenda.inv {B : List (D × K)} {g : Gqdit K D} (ha : Agenda I B g) :
    (∀ b ∈ B, Valid (I := I) b.2) ∧ B.Pairwise (fun a b => ¬ Overlap (I := I) a.2 b.2) ∧
    ∃ f : I → Finset D, Rep g f ∧ ∀ p d, d ∈ f p ↔ ∃ k, (d, k) ∈ B ∧ Mem p k := by
  induction ha with
  | new h =>
    obtain ⟨g', h1, h2⟩ := new_rep (I := I) (K := K) (D := D)
    rw [h] at h1; cases h1
    exact ⟨by simp, List.Pairwise.nil, _, h2, by simp⟩
  | @book B g g' gaps gap k d q ha hq hgap hk hi ih =>
    obtain ⟨i1, i2, f, hr, hf⟩ := ih
    have hkv : Valid (I := I) k := by
      by_contra hc; rw [insert_bad hc] at hi; cases hi
    have hqv : Valid q := by
      by_contra hc
      unfold Gqdit.gapsNoIdentifier at hq
      rw [invalidIntervalPanic_err (by rwa [valid_iff] at hc)] at hq; cases hq
    obtain ⟨l, e1, e2⟩ := hr.gapsNoIdentifier hqv
    rw [hq] at e1; cases e1
    obtain ⟨i, rfl, him, -⟩ := (e2.2 gap).1 hgap
    have hfree : ∀ p, Mem p k → f p = ∅ := fun p hp => him.2.1 p (mem_ofInterval.1 (hk p hp))
    obtain ⟨g1, j1, j2⟩ := hr.insert hkv {d}
    rw [hi] at j1; cases j1
    refine ⟨?_, ?_, _, j2, ?_⟩
    · intro b hb
      rcases List.mem_cons.1 hb with rfl | hb
      · exact hkv
      · exact i1 b hb
    · refine List.pairwise_cons.2 ⟨?_, i2⟩
      rintro ⟨d', k'⟩ hb ⟨p, hp, hp'⟩
      have : d' ∈ f p := (hf p d').2 ⟨k', hb, hp'⟩
      rw [hfree p hp] at this; simp at this
    · intro p x
      by_cases hp : Mem p k
      · have h0 := hf p x
        rw [hfree p hp] at h0
        simp only [if_pos hp, Finset.mem_union, List.mem_cons, Prod.mk.injEq, Finset.mem_singleton, hfree p hp]
        simp only [Finset.notMem_empty, false_iff, not_exists, false_or] at h0 ⊢
        constructor
        · rintro rfl; exact ⟨k, Or.inl ⟨rfl, rfl⟩, hp⟩
        · rintro ⟨k', ⟨hx, -⟩ | hb, hpk⟩
          · exact hx
          · exact absurd ⟨hb, hpk⟩ (h0 k')
      · simp only [if_neg hp, hf p x, List.mem_cons, Prod.mk.injEq]
        constructor
        · rintro ⟨k', hb, hpk⟩; exact ⟨k', Or.inr hb, hpk⟩
        · rintro ⟨k', ⟨-, rfl⟩ | hb, hpk⟩
          · exact absurd hpk hp
          · exact ⟨k', hb, hpk⟩
  | @cancel B B' g g' d k ha hi ih =>
    obtain ⟨i1, i2, f, hr, hf⟩ := ih
    have hkv : Valid (I := I) k := i1 (d, k) (by simp)
    obtain ⟨g1, j1, j2⟩ := hr.cutWith (Q := K) hkv {d}
    rw [hi] at j1; cases j1
    have hsub : ∀ b, b ∈ B ++ B' → b ∈ B ++ (d, k) :: B' := by
      intro b hb; simp only [List.mem_append, List.mem_cons] at hb ⊢; tauto
    have hdis : ∀ b ∈ B ++ B', ¬ Overlap (I := I) b.2 k := by
      rw [List.pairwise_append, List.pairwise_cons] at i2
      obtain ⟨-, ⟨h1, -⟩, h2⟩ := i2
      intro b hb
      rcases List.mem_append.1 hb with hb | hb
      · exact h2 b hb (d, k) (by simp)
      · rintro ⟨p, hp, hp'⟩; exact h1 b hb ⟨p, hp', hp⟩
    refine ⟨fun b hb => i1 b (hsub b hb), i2.sublist (by simp), _, j2, fun p x => ?_⟩
    by_cases hp : Mem p k
    · simp only [if_pos hp, Finset.mem_sdiff, Finset.mem_singleton, hf p x]
      constructor
      · rintro ⟨⟨k', hb, hpk⟩, hx⟩
        simp only [List.mem_append, List.mem_cons, Prod.mk.injEq] at hb ⊢
        exact ⟨k', by tauto, hpk⟩
      · rintro ⟨k', hb, hpk⟩
        exact absurd ⟨p, hpk, hp⟩ (hdis _ hb)
    · simp only [if_neg hp, hf p x]
      constructor
      · rintro ⟨k', hb, hpk⟩
        simp only [List.mem_append, List.mem_cons, Prod.mk.injEq] at hb ⊢
        rcases hb with hb | ⟨-, rfl⟩ | hb
        · exact ⟨k', Or.inl hb, hpk⟩
        · exact absurd hpk hp
        · exact ⟨k', Or.inr hb, hpk⟩
      · rintro ⟨k', hb, hpk⟩; exact ⟨k', hsub _ hb, hpk⟩

/-- **C101**: in every execution of the exclusive protocol no two bookings held at the same time share a point, and
`identifiers_at_point` names exactly the owner of the booking there, if there is one. -/
theorem C101_bookings_never_collide {B : List (D × K)} {g : Gqdit K D} (ha : Agenda I B g) :
    B.Pairwise (fun a b => ¬ Overlap (I := I) a.2 b.2) ∧
    ∀ p : I, ∃ ids, g.identifiersAtPoint p = .ok ids ∧ ∀ d, d ∈ ids ↔ ∃ k, (d, k) ∈ B ∧ Mem p k := by
  obtain ⟨-, i2, f, hr, hf⟩ := ha.inv
  exact ⟨i2, fun p => ⟨_, hr.identifiers p, hf p⟩⟩

/-- **C101**: nobody is turned away: an interval that shares no point with a booking is inside one of the listed gaps of any query that
touches it, booking it succeeds, and so does giving any booking back. No call of the protocol panics. -/
theorem C101_free_intervals_can_be_booked {B : List (D × K)} {g : Gqdit K D} (ha : Agenda I B g) {k : K} {q : Interval I}
    (hk : ∀ b ∈ B, ¬ Overlap (I := I) b.2 k) (hq : Overlap k q) (d : D) :
    ∃ gaps, g.gapsNoIdentifier q = .ok gaps ∧ (∃ gap ∈ gaps, ∀ p : I, Mem p k → Mem p gap) ∧
      ∃ g', g.insert (I := I) {d} k = .ok g' ∧ Agenda I ((d, k) :: B) g' := by
  obtain ⟨-, i2, f, hr, hf⟩ := ha.inv
  obtain ⟨x, hxk, hxq⟩ := hq
  obtain ⟨l, e1, e2⟩ := hr.gapsNoIdentifier (Q := Interval I) ⟨x, hxq⟩
  have hfree : ∀ p, Mem p k → f p = ∅ := by
    intro p hp
    ext y
    rw [hf p y]
    simp only [Finset.notMem_empty, iff_false]
    rintro ⟨k', hb, hpk⟩
    exact hk _ hb ⟨p, hpk, hp⟩
  obtain ⟨⟨ek, ev⟩, he, hxe, hev⟩ := hr.entry x
  simp only at hxe hev
  obtain ⟨i, rfl⟩ := hr.keys _ he
  have hm := hr.maximal he
  have hv0 : ev = ∅ := by rw [hev]; exact hfree x hxk
  subst hv0
  have hgap : (ofInterval i : K) ∈ l := (e2.2 _).2 ⟨i, rfl, hm, x, mem_ofInterval.1 hxe, hxq⟩
  have hin : ∀ p : I, Mem p k → Mem p (ofInterval i : K) := fun p hp =>
    mem_ofInterval.2 (hm.2.2 ⟨IntervalType.start k, IntervalType.stop k⟩ hfree ⟨x, mem_ofInterval.1 hxe, hxk⟩ p hp)
  obtain ⟨g', h1, -⟩ := hr.insert (k := k) ⟨x, hxk⟩ {d}
  exact ⟨l, e1, ⟨_, hgap, hin⟩, g', h1, .book d q ha e1 hgap hin h1⟩

/-- **C101**: a booking can always be given back, and its interval can then be booked again at once, by anybody. -/
theorem C101_cancelled_can_be_rebooked {B B' : List (D × K)} {g : Gqdit K D} {d : D} {k : K} (ha : Agenda I (B ++ (d, k) :: B') g)
    (d' : D) :
    ∃ g', g.cutWithIdentifiers (I := I) {d} k = .ok g' ∧ Agenda I (B ++ B') g' ∧
      (∀ p : I, Mem p k → g'.identifiersAtPoint p = .ok ∅) ∧
      ∃ gaps, g'.gapsNoIdentifier (I := I) k = .ok gaps ∧ (∃ gap ∈ gaps, ∀ p : I, Mem p k → Mem p gap) ∧
      ∃ g'', g'.insert (I := I) {d'} k = .ok g'' ∧ Agenda I ((d', k) :: (B ++ B')) g'' := by
  obtain ⟨i1, i2, f, hr, hf⟩ := ha.inv
  have hkv : Valid (I := I) k := i1 (d, k) (by simp)
  obtain ⟨g', j1, -⟩ := hr.cutWith (Q := K) hkv {d}
  have ha' : Agenda I (B ++ B') g' := .cancel ha j1
  have hdis : ∀ b ∈ B ++ B', ¬ Overlap (I := I) b.2 k := by
    rw [List.pairwise_append, List.pairwise_cons] at i2
    obtain ⟨-, ⟨h1, -⟩, h2⟩ := i2
    intro b hb
    rcases List.mem_append.1 hb with hb | hb
    · exact h2 b hb (d, k) (by simp)
    · rintro ⟨p, hp, hp'⟩; exact h1 b hb ⟨p, hp', hp⟩
  refine ⟨g', j1, ha', fun p hp => ?_, ?_⟩
  · obtain ⟨ids, h1, h2⟩ := (C101_bookings_never_collide ha').2 p
    rw [h1]
    congr 1
    ext y
    rw [h2]
    simp only [Finset.notMem_empty, iff_false]
    rintro ⟨k', hb, hpk⟩
    exact hdis _ hb ⟨p, hpk, hp⟩
  · obtain ⟨x, hx⟩ := hkv
    exact C101_free_intervals_can_be_booked ha' hdis (q := ⟨IntervalType.start k, IntervalType.stop k⟩) ⟨x, hx, hx⟩ d'

/-- **C101**: in every execution of the protocol with owners no point ever holds two identifiers. -/
theorem C101_one_owner_per_point {g : Gqdit K D} (ha : Owners I g) (p : I) :
    ∃ ids, g.identifiersAtPoint p = .ok ids ∧ ∀ d ∈ ids, ∀ d' ∈ ids, d = d' := by
  induction ha with
  | new h =>
    obtain ⟨g', h1, h2⟩ := new_rep (I := I) (K := K) (D := D)
    rw [h] at h1; cases h1
    exact ⟨_, h2.identifiers p, by simp⟩
  | @place g g' gaps gap k d q ha hq hgap hk hi ih =>
    obtain ⟨h, hh⟩ := ha.history
    have hr := rep_of_eval hh
    obtain ⟨ids, e, ih⟩ := ih
    rw [hr.identifiers p] at e; cases e
    have hkv : Valid (I := I) k := by
      by_contra hc; rw [insert_bad hc] at hi; cases hi
    have hqv : Valid q := by
      by_contra hc
      unfold Gqdit.gapsWithIdentifier at hq
      rw [invalidIntervalPanic_err (by rwa [valid_iff] at hc)] at hq; cases hq
    obtain ⟨l, e1, e2⟩ := hr.gapsWithIdentifier d hqv
    rw [hq] at e1; cases e1
    obtain ⟨i, rfl, him, -⟩ := (e2.2 gap).1 hgap
    obtain ⟨g1, j1, j2⟩ := hr.insert hkv {d}
    rw [hi] at j1; cases j1
    refine ⟨_, j2.identifiers p, ?_⟩
    by_cases hp : Mem p k
    · have := him.2.1 p (mem_ofInterval.1 (hk p hp))
      rw [if_pos hp]
      intro x hx y hy
      have hx' : x = d := by
        rcases Finset.mem_union.1 hx with hx | hx
        · simpa using this hx
        · simpa using hx
      have hy' : y = d := by
        rcases Finset.mem_union.1 hy with hy | hy
        · simpa using this hy
        · simpa using hy
      rw [hx', hy']
    · rw [if_neg hp]; exact ih
  | @remove g g' ids q ha hi ih =>
    obtain ⟨h, hh⟩ := ha.history
    have hr := rep_of_eval hh
    obtain ⟨ids, e, ih⟩ := ih
    rw [hr.identifiers p] at e; cases e
    obtain ⟨hv, -⟩ := eval_cutWith hh hi
    obtain ⟨g1, j1, j2⟩ := hr.cutWith hv ‹Finset D›
    rw [hi] at j1; cases j1
    refine ⟨_, j2.identifiers p, ?_⟩
    split_ifs
    · intro x hx y hy
      exact ih x (Finset.mem_sdiff.1 hx).1 y (Finset.mem_sdiff.1 hy).1
    · exact ih

/-- **C101**: and a point of `q` that nobody else holds is always offered to `d`. -/
theorem C101_owner_is_offered {g : Gqdit K D} (ha : Owners I g) (d : D) {q : Interval I} {p : I} (hp : Mem p q)
    (hfree : ∀ ids, g.identifiersAtPoint p = .ok ids → ∀ x ∈ ids, x = d) :
    ∃ gaps, g.gapsWithIdentifier d q = .ok gaps ∧ ∃ gap ∈ gaps, Mem p gap := by
  obtain ⟨h, hh⟩ := ha.history
  obtain ⟨l, l', -, h2, -, h4⟩ := gaps_points hh d (q := q) ⟨p, hp⟩
  exact ⟨l', h2, (h4 p hp).2 (hfree _ ((rep_of_eval hh).identifiers p))⟩

namespace Demo
/-- two bookings -/
example : ∃ g : Gqdit (Interval U8) Nat, Agenda U8 [(2, iv 20 29), (1, iv 10 19)] g ∧
    g.identifiersAtPoint (u8 10) = .ok {1} ∧ g.gapsNoIdentifier (iv 15 40) = .ok [iv 30 255] := by
  have sub : ∀ {a b c d : U8}, c ≤ a → b ≤ d → ∀ p : U8, Mem p (⟨a, b⟩ : Interval U8) → Mem p (⟨c, d⟩ : Interval U8) :=
    fun h h' p hp => ⟨le_trans h hp.1, le_trans hp.2 h'⟩
  have h0 : Agenda U8 [] (⟨⟨[(iv 0 255, ∅)]⟩⟩ : Gqdit (Interval U8) Nat) := .new (by decide)
  have h1 : Agenda U8 [(1, iv 10 19)] (⟨⟨[(iv 0 9, ∅), (iv 10 19, {1}), (iv 20 255, ∅)]⟩⟩ : Gqdit (Interval U8) Nat) :=
    .book (gaps := [iv 0 255]) (gap := iv 0 255) 1 (iv 5 30) h0 (by decide) (by simp) (sub (by decide) (by decide)) (by decide)
  have h2 : Agenda U8 [(2, iv 20 29), (1, iv 10 19)]
      (⟨⟨[(iv 0 9, ∅), (iv 10 19, {1}), (iv 20 29, {2}), (iv 30 255, ∅)]⟩⟩ : Gqdit (Interval U8) Nat) :=
    .book (gaps := [iv 20 255]) (gap := iv 20 255) 2 (iv 15 30) h1 (by decide) (by simp) (sub (by decide) (by decide)) (by decide)
  exact ⟨_, h2, by decide, by decide⟩

/-- two owners; the second is not offered the first's interval, and the first is offered its own and what is free around it -/
example : ∃ g : Gqdit (Interval U8) Nat, Owners U8 g ∧ g.gapsWithIdentifier 2 (iv 15 25) = .ok [iv 20 255] ∧
    g.gapsWithIdentifier 1 (iv 15 25) = .ok [iv 0 255] := by
  have h0 : Owners U8 (⟨⟨[(iv 0 255, ∅)]⟩⟩ : Gqdit (Interval U8) Nat) := .new (by decide)
  exact ⟨_, .place (g' := ⟨⟨[(iv 0 9, ∅), (iv 10 19, {1}), (iv 20 255, ∅)]⟩⟩) (gaps := [iv 0 255]) (gap := iv 0 255) (k := iv 10 19)
    1 (iv 5 30) h0 (by decide) (by simp) (fun p hp => ⟨le_trans (by decide) hp.1, le_trans hp.2 (by decide)⟩) (by decide),
    by decide, by decide⟩
end Demo
end Nodit
