import Verif.Props.ZosditExact
import Verif.Props.FromIter
/-!
# C86: a `ZosditMap` with disjoint entries and a `NoditMap` with the same entries

`ZosditMap` is documented as the generalisation of `NoditMap` to intervals that may share end points. So as long as no
entries share a point, the two should agree, call by call. They do, except where `ZosditMap` has its two defects
(C63: a point at which an entry ends; C65: a cut with an entry wholly before it).
-/
set_option linter.unusedSectionVars false
namespace Nodit
open Spec PointType

variable {I K Q V : Type} [PointType I] [IntervalType I K] [IntervalType I Q]
  [LawfulPoint I] [LawfulInterval I K]

theorem describes_unique {i j : Interval I} {P : I → Prop} (h : Describes i P) (h' : Describes j P) : i = j := by
  obtain ⟨⟨a, ha⟩, h1⟩ := h
  obtain ⟨⟨b, hb⟩, h2⟩ := h'
  have e : ∀ p, Mem p i ↔ Mem p j := fun p => (h1 p).trans (h2 p).symm
  have a1 := (e i.start).1 ⟨le_refl _, le_trans ha.1 ha.2⟩
  have a2 := (e i.stop).1 ⟨le_trans ha.1 ha.2, le_refl _⟩
  have b1 := (e j.start).2 ⟨le_refl _, le_trans hb.1 hb.2⟩
  have b2 := (e j.stop).2 ⟨le_trans hb.1 hb.2, le_refl _⟩
  obtain ⟨s, t⟩ := i
  obtain ⟨s', t'⟩ := j
  simp only [Mem, start, stop] at a1 a2 b1 b2
  have e1 : s = s' := by order
  have e2 : t = t' := by order
  rw [e1, e2]

theorem part_unique {P : I → Prop} {v : V} {l l' : List (K × V)} (h : Part P v l) (h' : Part P v l') : l = l' := by
  have key : ∀ {i : Interval I}, Describes i P → ¬ ∀ p, ¬ P p := by
    rintro i ⟨⟨p, hp⟩, h⟩ hn; exact hn p ((h p).1 hp)
  rcases h with ⟨h1, rfl⟩ | ⟨i, h1, rfl⟩ <;> rcases h' with ⟨h2, rfl⟩ | ⟨j, h2, rfl⟩
  · rfl
  · exact absurd h1 (key h2)
  · exact absurd h2 (key h1)
  · rw [describes_unique h1 h2]

theorem cutEntry_unique {q : Q} {e : K × V} {l r l' r' : List (K × V)} (h : CutEntry q e l r) (h' : CutEntry q e l' r') :
    l = l' ∧ r = r' := by
  obtain ⟨h1, h2, h3⟩ := h
  obtain ⟨g1, g2, g3⟩ := h'
  refine ⟨?_, part_unique h1 g1⟩
  by_cases ho : Overlap e.1 q
  · obtain ⟨b, a, rfl, hb, ha⟩ := h3 ho
    obtain ⟨b', a', rfl, hb', ha'⟩ := g3 ho
    rw [part_unique hb hb', part_unique ha ha']
  · rw [h2 ho, g2 ho]

theorem cutAll_unique {q : Q} {l left r left' r' : List (K × V)} (h : CutAll q l left r) (h' : CutAll q l left' r') :
    left = left' ∧ r = r' := by
  induction h generalizing left' r' with
  | nil => cases h'; exact ⟨rfl, rfl⟩
  | cons h1 h2 ih =>
    cases h' with
    | cons g1 g2 =>
      obtain ⟨rfl, rfl⟩ := cutEntry_unique h1 g1
      obtain ⟨rfl, rfl⟩ := ih g2
      exact ⟨rfl, rfl⟩

open ZosditMap

/-- **C86**: queries. `m` and the `ZosditMap` hold the same (hence disjoint) entries. `overlapping`, `first_key_value` and
`last_key_value` agree; `get_last_value_at_point(p)` is `get_at_point(p)`, except that it is `None` if an entry ends at `p`
and there are entries above. -/
theorem C86_queries (ops : List (ZOp I K V)) {m : NoditMap K V} (hm : WF m.iter) (he : (after ops).iter = m.iter) (q : Q) (p : I) :
    (after ops).overlapping q = m.overlapping q ∧
    (after ops).firstKeyValue = m.firstKeyValue ∧ (after ops).lastKeyValue = m.lastKeyValue ∧
    (((∃ e ∈ m.iter, Mem p e.1 ∧ ∀ x, Mem x e.1 → x ≤ p) ∧ (∃ e ∈ m.iter, ∃ x, Mem x e.1 ∧ p < x)) →
      (after ops).getLastValueAtPoint p = none) ∧
    (¬ ((∃ e ∈ m.iter, Mem p e.1 ∧ ∀ x, Mem x e.1 → x ≤ p) ∧ (∃ e ∈ m.iter, ∃ x, Mem x e.1 ∧ p < x)) →
      m.getAtPoint p = .ok ((after ops).getLastValueAtPoint p)) := by
  have hu : ∀ e ∈ m.iter, ∀ d ∈ m.iter, Mem p e.1 → Mem p d.1 → e = d := (C03_point_lookup hm p).2.2.2
  refine ⟨?_, ?_, ?_, ?_, ?_⟩
  · by_cases hq : Valid q
    · classical
      have h1 := C44_overlapping ops hq
      obtain ⟨⟨out, h2, h3, h4⟩, -⟩ := C05_overlapping_exact hm q hq
      rw [h1, h2, he]
      congr 1
      have hw : WF (m.iter.filter (fun e => decide (Overlap e.1 q))) :=
        ⟨fun e h => hm.1 e (List.mem_of_mem_filter h), hm.2.filter _⟩
      refine (wf_iff_chain.1 hw).ext (wf_iff_chain.1 h3) fun e => ?_
      rw [h4, List.mem_filter, decide_eq_true_eq]
    · rw [NoditMap.panic_overlapping hq, ZosditMap.overlapping, invalidIntervalPanic_err (by rwa [valid_iff] at hq)]; rfl
  · rw [(C51_first_last ops).1, he]; rfl
  · rw [(C51_first_last ops).2, he]; rfl
  · rintro ⟨⟨e, h1, h2, h3⟩, h4⟩
    rw [(C63_get_last_value_exact ops p).1, he]
    exact Or.inr ⟨h4, fun d hd hpd => by rw [hu d hd e h1 hpd h2]; exact h3⟩
  · intro hn
    cases hg : (after ops).getLastValueAtPoint p with
    | some v =>
      obtain ⟨-, l1, k, l2, h1, h2, -⟩ := ((C63_get_last_value_exact ops p).2 v).1 hg
      exact getAtPoint_eq (e := (k, v)) hm (by rw [← he, h1]; simp) h2
    | none =>
      rw [(C63_get_last_value_exact ops p).1, he] at hg
      rcases hg with hg | ⟨h1, h2⟩
      · exact getAtPoint_none hm hg
      · refine getAtPoint_none hm fun e h3 h4 => hn ⟨⟨e, h3, h4, h2 e h3 h4⟩, h1⟩

theorem same_insert {z0 : ZosditMap K V} (hg : Good z0) {m m' : NoditMap K V} (hm : WF m.iter) (he : z0.iter = m.iter) {k : K} {v : V}
    (h : m.insertStrict k v = .ok (m', .ok ())) (pick : Nat) :
    ∃ z, z0.insertStrictBack k v pick = .ok (z, .ok ()) ∧ Good z ∧ z.iter = m'.iter ∧ z.length = z0.length + 1 := by
  have hk : Valid k := by
    by_contra hk
    have : m.insertStrict k v = .error .invalidInterval := by
      unfold NoditMap.insertStrict; rw [invalidIntervalPanic_err (by rwa [valid_iff] at hk)]; rfl
    rw [this] at h; cases h
  obtain ⟨m1, r, h1, h2, h3, h4⟩ := C06_insert_strict hm k hk v
  rw [h] at h1; cases h1
  have hno : ∀ e ∈ m.iter, ¬ Overlap e.1 k := fun e he' ho => by have := (h3 ⟨e, he', ho⟩).1; cases this
  obtain ⟨-, h5, -⟩ := h4 hno
  have hz : ∀ e ∈ z0.iter, ZeroOverlap e.1 k := by
    intro e h6
    rw [he] at h6
    exact ⟨fun p _ hp hp' => absurd ⟨p, hp, hp'⟩ (hno e h6), fun p hp hp' => absurd ⟨p, hp, hp'⟩ (hno e h6)⟩
  rcases insert_exact hg hk v pick with ⟨⟨e, g1, g2⟩, -⟩ | ⟨-, z, g2, g3, hlen, -, l1, k', l2, e1, e2, e3, e4, e5, e6, e7, -⟩
  · exact absurd (hz e g1) g2
  refine ⟨z, g2, g3, ?_, ?_⟩
  rotate_left
  · exact hlen
  rw [he] at e1
  have hk' : k' = k := e5 fun e h6 hs => by
    obtain ⟨p, hp⟩ := hk
    rw [he] at h6
    exact hno e h6 ⟨p, (hs p).2 hp, hp⟩
  subst hk'
  have m1 : ∀ e ∈ l1, e ∈ m.iter := fun e he => by rw [e1]; simp [he]
  have m2 : ∀ e ∈ l2, e ∈ m.iter := fun e he => by rw [e1]; simp [he]
  have hw : WF z.iter := by
    rw [e2]
    rw [e1] at hm
    obtain ⟨w1, w2⟩ := hm
    obtain ⟨w3, w4, w5⟩ := List.pairwise_append.1 w2
    refine ⟨?_, List.pairwise_append.2 ⟨w3, List.pairwise_cons.2 ⟨?_, w4⟩, ?_⟩⟩
    · intro e h6
      simp only [List.mem_append, List.mem_cons] at h6
      rcases h6 with h6 | rfl | h6
      · exact w1 e (by simp [h6])
      · exact hk
      · exact w1 e (by simp [h6])
    · intro e h6 p x hp hx
      exact lt_of_le_of_ne (e7 e h6 p x hp hx) fun hc => hno e (m2 e h6) ⟨p, hc ▸ hx, hp⟩
    · intro e h6 d h7 p x hp hx
      simp only [List.mem_cons] at h7
      rcases h7 with rfl | h7
      · exact lt_of_le_of_ne (e6 e h6 p x hp hx) fun hc => hno e (m1 e h6) ⟨p, hp, hc ▸ hx⟩
      · exact w5 e h6 d h7 p x hp hx
  refine (wf_iff_chain.1 hw).ext (wf_iff_chain.1 h2) fun e => ?_
  rw [h5, e2, e1]
  simp only [List.mem_append, List.mem_cons]
  tauto

/-- **C86**: if `insert_strict` succeeds on the `NoditMap`, `insert_strict_back` succeeds on the `ZosditMap`, and they hold
the same entries again. -/
theorem C86_insert (ops : List (ZOp I K V)) {m m' : NoditMap K V} (hm : WF m.iter) (he : (after ops).iter = m.iter) {k : K} {v : V}
    (h : m.insertStrict k v = .ok (m', .ok ())) (pick : Nat) :
    ∃ z, (after ops).insertStrictBack k v pick = .ok (z, .ok ()) ∧ z.iter = m'.iter := by
  obtain ⟨z, h1, -, h2, -⟩ := same_insert (good_after ops) hm he h pick
  exact ⟨z, h1, h2⟩

/-- **C86**: `cut` returns and leaves the same, unless some entry has points before `q` and no such entry reaches `q`. -/
theorem C86_cut (ops : List (ZOp I K V)) {m : NoditMap K V} (hm : WF m.iter) (he : (after ops).iter = m.iter) {q : Q} (hq : Valid q)
    (hc : ¬ CutMisses m.iter q) :
    ∃ z m' out, (after ops).cut q = .ok (z, out) ∧ m.cut q = .ok (m', out) ∧ z.iter = m'.iter := by
  rcases cut_exact (good_after ops) hq with ⟨h1, -⟩ | ⟨-, z, r, h2, h3, -⟩
  · rw [he] at h1; exact absurd h1 hc
  · have hch := wf_iff_chain.1 hm
    have h4 := NoditMap.cut_ok (m := m) hch (valid_iff.1 hq)
    have h5 := cutAll_ok (q := q) (valid_iff.1 hq) (l := m.iter) hch.1
    rw [he] at h3
    obtain ⟨e1, e2⟩ := cutAll_unique h3 h5
    refine ⟨z, _, r, h2, ?_, e1⟩
    rw [h4, e2]; rfl

/-- **C86**: if `from_iter_strict` succeeds, so does `from_iter_strict_back` on the same input, with the same entries and the
same `len()`. -/
theorem C86_from_iter {l : List (K × V)} {m : NoditMap K V} (h : NoditMap.fromIterStrict l = .ok (.ok m)) (picks : Nat → Nat) :
    ∃ z, ZosditMap.fromIterStrictBack l picks = .ok (.ok z) ∧ z.iter = m.iter ∧ z.length = m.len := by
  have key : ∀ (l : List (K × V)) (m0 : NoditMap K V) (z0 : ZosditMap K V) (picks : Nat → Nat), WF m0.iter → Good z0 →
      z0.iter = m0.iter → z0.length = m0.len → NoditMap.fromIterStrictFrom m0 l = .ok (.ok m) →
      ∃ z, ZosditMap.fromIterFrom z0 picks l = .ok (.ok z) ∧ z.iter = m.iter ∧ z.length = m.len := by
    intro l
    induction l with
    | nil =>
      intro m0 z0 picks hw hg he hl h
      cases h
      exact ⟨z0, rfl, he, hl⟩
    | cons e l ih =>
      obtain ⟨k, v⟩ := e
      intro m0 z0 picks hw hg he hl h
      simp only [NoditMap.fromIterStrictFrom, bind, Except.bind] at h
      cases hi : m0.insertStrict k v with
      | error p => rw [hi] at h; cases h
      | ok r =>
        obtain ⟨m1, r⟩ := r
        rw [hi] at h
        cases r with
        | error _ => cases h
        | ok u =>
          obtain ⟨z1, g1, g2, g3, g4⟩ := same_insert hg hw he hi (picks 0)
          have hk : Valid k := by
            by_contra hk
            have : m0.insertStrict k v = .error .invalidInterval := by
              unfold NoditMap.insertStrict; rw [invalidIntervalPanic_err (by rwa [valid_iff] at hk)]; rfl
            rw [this] at hi; cases hi
          obtain ⟨m2, r2, e1, e2, e3, e4⟩ := C06_insert_strict hw k hk v
          rw [hi] at e1; cases e1
          have hno : ∀ e ∈ m0.iter, ¬ Overlap e.1 k := fun e he' ho => by have := (e3 ⟨e, he', ho⟩).1; cases this
          obtain ⟨z, f1, f2, f3⟩ := ih m1 z1 (fun i => picks (i + 1)) e2 g2 g3 (by rw [g4, hl, (e4 hno).2.2]) h
          refine ⟨z, ?_, f2, f3⟩
          simp only [ZosditMap.fromIterFrom, bind, Except.bind, g1]
          exact f1
  exact key l _ _ picks (wf_new (I := I)) good_new rfl rfl h

namespace Demo
/-- three disjoint entries, two of them touching -/
def zdis : List (ZOp U8 (Interval U8) Nat) :=
  [.insertStrictBack (iv 10 20) 2 0, .insertStrictBack (iv 0 4) 1 0, .insertStrictBack (iv 21 30) 3 0]
/-- the same entries in a `NoditMap` -/
def ndis : NoditMap (Interval U8) Nat := ⟨[(iv 0 4, 1), (iv 10 20, 2), (iv 21 30, 3)]⟩
end Demo

/-- the hypotheses of C86 are met, for a cut that both maps perform and one that only the `NoditMap` does -/
example : WF Demo.ndis.iter ∧ (after Demo.zdis).iter = Demo.ndis.iter ∧ Valid (Demo.iv 3 12) ∧
    ¬ CutMisses Demo.ndis.iter (Demo.iv 3 12) ∧ CutMisses Demo.ndis.iter (Demo.iv 6 12) ∧
    Demo.ndis.insertStrict (Demo.iv 5 9) 7 = .ok (⟨[(Demo.iv 0 4, 1), (Demo.iv 5 9, 7), (Demo.iv 10 20, 2), (Demo.iv 21 30, 3)]⟩, .ok ()) := by
  have hit : (after Demo.zdis).iter = Demo.ndis.iter := by decide
  refine ⟨?_, hit, valid_iff.2 (by decide), ?_, ?_, by decide⟩
  · rw [wf_iff_chain]; unfold Chain; decide
  · rw [← hit]
    rcases cut_exact (good_after Demo.zdis) (q := Demo.iv 3 12) (valid_iff.2 (by decide)) with ⟨-, h⟩ | ⟨h, -⟩
    · exact absurd h (by decide)
    · exact h
  · rw [← hit]
    rcases cut_exact (good_after Demo.zdis) (q := Demo.iv 6 12) (valid_iff.2 (by decide)) with ⟨h, -⟩ | ⟨-, z, r, h1, h2, -⟩
    · exact h
    · exfalso
      have : (after Demo.zdis).cut (Demo.iv 6 12) = .ok (after Demo.zdis, []) := by decide
      rw [this] at h1; cases h1
      have := cutAll_unique h2 (cutAll_ok (q := Demo.iv 6 12) (by decide) (l := (after Demo.zdis).iter) (by decide))
      exact absurd this.2 (by decide)

end Nodit
