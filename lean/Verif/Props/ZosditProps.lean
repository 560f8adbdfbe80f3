import Verif.Lemmas.ZosditRun
import Verif.Props.Demo
/-!
# C36 - C45, C51: properties of `ZosditMap`

The vocabulary (`ZeroOverlap`, `ZWF`, `CutAll`, `ZOp`) is in `Verif/Spec.lean`; `ZosditMap.run` (running a history
with the modelled functions) is in `Verif/History.lean`.

Several of the documented properties are false of the code; each of these has a counterexample theorem, a theorem
named `_partial` which states when the property holds, and theorems saying exactly what happens otherwise.
-/
set_option linter.unusedSectionVars false
namespace Nodit
open Spec PointType ZosditMap

variable {I K Q V : Type} [PointType I] [IntervalType I K] [IntervalType I Q]
  [LawfulPoint I] [LawfulInterval I K]

namespace ZosditMap
/-- the map after a history of calls on a fresh map -/
def after (ops : List (ZOp I K V)) : ZosditMap K V := (new.run ops).1
/-- what the calls of the history returned -/
def outputs (ops : List (ZOp I K V)) : List (Res (ZOut K V)) := ((new : ZosditMap K V).run ops).2

theorem good_after (ops : List (ZOp I K V)) : Good (after ops) := (run_ok good_new ops).1
end ZosditMap

namespace Demo
/-- a history: touching and repeated point intervals, a removal, a cut through two entries, a refused insert and a
panicking call -/
def zops : List (ZOp U8 (Interval U8) Nat) :=
  [.insertStrictBack (iv 0 4) 1 0, .insertStrictBack (iv 4 4) 2 0, .insertStrictBack (iv 4 8) 3 0, .insertStrictBack (iv 4 4) 4 0,
   .insertStrictBack (iv 8 20) 5 0, .removeLastValueAtPoint (u8 10), .insertStrictBack (iv 30 30) 6 0, .insertStrictBack (iv 30 30) 7 0,
   .cut (iv 3 5), .insertStrictBack (iv 7 9) 8 0, .insertStrictBack (iv 9 7) 9 0]

omit [LawfulInterval I K] in
theorem zops_iter : (after zops).iter = [(iv 0 2, 1), (iv 6 8, 3), (iv 30 30, 6), (iv 30 30, 7)] := by decide
end Demo

/-! ## C36: the entries form a zero-overlap sequence -/

/-- **C36** -/
theorem C36_zero_overlap_sequence (ops : List (ZOp I K V)) : ZWF (after ops).iter :=
  zwf_iff.2 (good_after ops).inv.flat

/-- **C36**, in the words of the documentation: no two entries share more than an end point of both. -/
theorem C36_pairwise_zero_overlap (ops : List (ZOp I K V)) :
    (after ops).iter.Pairwise (fun a b => ZeroOverlap a.1 b.1) := by
  obtain ⟨h1, h2⟩ := (good_after ops).inv.flat
  exact List.Pairwise.imp_of_mem (fun {a b} ha hb hab => (zeroOverlap_iff (h1 a ha) (h1 b hb)).2 (Or.inl hab)) h2

example : (after Demo.zops).iter.length = 4 := by decide

/-! ## C37: panics -/

/-- **C37**: a call panics iff its interval argument contains no point, and then with the documented panic. -/
theorem C37_panics_iff (ops : List (ZOp I K V)) (op : ZOp I K V) :
    ((∃ p, (after ops).step op = .error p) ↔ op.Bad) ∧ (op.Bad → (after ops).step op = .error .invalidInterval) := by
  rcases step_ok (good_after ops) op with ⟨hb, h1⟩ | ⟨hb, m', o, h1, -⟩
  · exact ⟨⟨fun _ => hb, fun _ => ⟨_, h1⟩⟩, fun _ => h1⟩
  · rw [h1]
    exact ⟨⟨(by rintro ⟨p, hp⟩; cases hp), fun hc => absurd hc hb⟩, fun hc => absurd hc hb⟩

/-- **C37**: the same for the queries taking an interval. -/
theorem C37_query_panics_iff (ops : List (ZOp I K V)) (q : Q) :
    ((∃ p, (after ops).isZeroOverlap q = .error p) ↔ ¬ Valid q) ∧ ((∃ p, (after ops).overlapping q = .error p) ↔ ¬ Valid q) := by
  by_cases hq : Valid q
  · have hq' := valid_iff.1 hq
    obtain ⟨b, hb, -⟩ := isZeroOverlap_ok (good_after ops).inv hq'
    rw [hb, overlapping_ok (good_after ops).inv hq']
    exact ⟨⟨(by rintro ⟨p, hp⟩; cases hp), fun hc => absurd hq hc⟩, ⟨(by rintro ⟨p, hp⟩; cases hp), fun hc => absurd hq hc⟩⟩
  · have hq' := fun h => hq (valid_iff.2 h)
    refine ⟨⟨fun _ => hq, fun _ => ⟨.invalidInterval, ?_⟩⟩, ⟨fun _ => hq, fun _ => ⟨.invalidInterval, ?_⟩⟩⟩
    · rw [isZeroOverlap, invalidIntervalPanic_err hq']; rfl
    · rw [overlapping, invalidIntervalPanic_err hq']; rfl

example : ∃ p, (after Demo.zops).step (.cut (Demo.iv 9 8)) = .error p := ⟨.invalidInterval, by rfl⟩

/-! ## C38: `is_zero_overlap` -/

/-- **C38** -/
theorem C38_is_zero_overlap (ops : List (ZOp I K V)) {q : Q} (hq : Valid q) :
    ∃ b, (after ops).isZeroOverlap q = .ok b ∧ (b = true ↔ ∀ e ∈ (after ops).iter, ZeroOverlap e.1 q) := by
  have hq' := valid_iff.1 hq
  have hg := (good_after ops).inv
  obtain ⟨b, hb, hiff⟩ := isZeroOverlap_ok hg hq'
  refine ⟨b, hb, hiff.trans ?_⟩
  rw [hg.forall_iff (fun x => stop x ≤ start q ∨ stop q ≤ start x)]
  exact forall₂_congr fun e he => (zeroOverlap_iff (hg.flat.1 e he) hq').symm

example : (after Demo.zops).isZeroOverlap (Demo.iv 8 30) = .ok true := by decide
example : (after Demo.zops).isZeroOverlap (Demo.iv 7 7) = .ok false := by decide

/-! ## C39: `insert_strict_back` -/

/-- **C39**, refusal: an interval that does not zero-overlap the map is refused, the value is handed back and the map
is unchanged. -/
theorem C39_refused (ops : List (ZOp I K V)) {k : K} (hk : Valid k) (v : V) (pick : Nat)
    (h : ∃ e ∈ (after ops).iter, ¬ ZeroOverlap e.1 k) :
    (after ops).insertStrictBack k v pick = .ok (after ops, .error ⟨v⟩) := by
  have hk' := valid_iff.1 hk
  have hg := good_after ops
  rcases insert_step hg hk' v pick with ⟨-, h1⟩ | ⟨h1, -⟩
  · exact h1
  · obtain ⟨e, he, hn⟩ := h
    exact absurd ((zeroOverlap_iff (hg.inv.flat.1 e he) hk').2 (h1 e he)) hn

/-- **C39**, except for the place among several entries with the same point interval after a `cut`: one entry is added,
with the value and an interval with the points of `k` (the key already stored, if there is one for that interval),
between the entries at or before `k` and those at or after `k`; it comes after all entries with an identical interval
if the history has no `cut` or `k` has several points. -/
theorem C39_insert_strict_back_partial (ops : List (ZOp I K V)) {k : K} (hk : Valid k) (v : V) (pick : Nat)
    (h : ∀ e ∈ (after ops).iter, ZeroOverlap e.1 k) :
    ∃ m' l1 k' l2, (after ops).insertStrictBack k v pick = .ok (m', .ok ()) ∧
      (after ops).iter = l1 ++ l2 ∧ m'.iter = l1 ++ (k', v) :: l2 ∧ SameInterval k' k ∧
      (k' = k ∨ ∃ e ∈ (after ops).iter, e.1 = k') ∧
      ((∀ e ∈ (after ops).iter, ¬ SameInterval e.1 k) → k' = k) ∧
      (∀ e ∈ l1, AtOrBefore e.1 k) ∧ (∀ e ∈ l2, AtOrBefore k e.1) ∧
      ((∀ op ∈ ops, op.isCut = false) ∨ (∃ p p', Mem p k ∧ Mem p' k ∧ p < p') → ∀ e ∈ l2, ¬ SameInterval e.1 k) := by
  have hk' := valid_iff.1 hk
  have hg := good_after ops
  have hv := hg.inv.flat.1
  rcases insert_step hg hk' v pick with ⟨⟨e, he, hn⟩, -⟩ | ⟨-, m', l1, k', l2, e1, e2, e3, e4, e5, e6, e7, e8, e9, e10, e11, e12, e13⟩
  · exact absurd ((zeroOverlap_iff (hv e he) hk').1 (h e he)) hn
  · have hi1 : ∀ e ∈ l1, e ∈ (after ops).iter := fun e he => by rw [e3]; simp [he]
    have hi2 : ∀ e ∈ l2, e ∈ (after ops).iter := fun e he => by rw [e3]; simp [he]
    refine ⟨m', l1, k', l2, e1, e3, e4, fun p => by simp [Mem, e6, e7], e8, ?_, ?_, ?_, ?_⟩
    · intro hs
      exact e13 fun e he hc => hs e he ((sameInterval_iff (hv e he) hk').2 hc)
    · intro e he; exact (atOrBefore_iff (hv e (hi1 e he)) hk').2 (e9 e he)
    · intro e he; exact (atOrBefore_iff hk' (hv e (hi2 e he))).2 (e10 e he)
    · intro hc e he hs
      refine e11 ?_ e he ((sameInterval_iff (hv e (hi2 e he)) hk').1 hs)
      rcases hc with hc | ⟨p, p', hp, hp', hlt⟩
      · exact Or.inl ((run_ok good_new ops).2.2.2 (by simp [NoDup, new]) hc)
      · right; have := hp.1; have := hp'.2; order

/-- a `cut` that leaves two separate stores for the interval `[4, 4]` -/
def Demo.zdup : List (ZOp Demo.U8 (Interval Demo.U8) Nat) :=
  [.insertStrictBack (Demo.iv 3 4) 1 0, .insertStrictBack (Demo.iv 4 4) 2 0, .cut (Demo.iv 3 3)]

omit [LawfulInterval I K] in
/-- **C39** is false as stated: after a `cut`, `insert_strict_back` may put the new value before the value of another
entry with an identical interval (which one depends on the shape of the tree, `pick`). -/
theorem C39_not_at_the_back : ∃ (ops : List (ZOp Demo.U8 (Interval Demo.U8) Nat)) (m' : ZosditMap (Interval Demo.U8) Nat),
    (after ops).iter = [(Demo.iv 4 4, 1), (Demo.iv 4 4, 2)] ∧
    (after ops).insertStrictBack (Demo.iv 4 4) 3 0 = .ok (m', .ok ()) ∧
    m'.iter = [(Demo.iv 4 4, 1), (Demo.iv 4 4, 3), (Demo.iv 4 4, 2)] :=
  ⟨Demo.zdup, _, by decide, rfl, by decide⟩

example : ∀ e ∈ (after Demo.zops).iter, ZeroOverlap e.1 (Demo.iv 30 30) := by
  intro e he
  have hv := (good_after Demo.zops).inv.flat.1 e he
  rw [zeroOverlap_iff hv (by decide)]
  rw [Demo.zops_iter] at he
  revert e; decide
example : ∃ e ∈ (after Demo.zops).iter, ¬ ZeroOverlap e.1 (Demo.iv 7 7) :=
  ⟨(Demo.iv 6 8, 3), by rw [Demo.zops_iter]; simp, by rw [zeroOverlap_iff (by decide) (by decide)]; decide⟩

/-! ## C40: `get_last_value_at_point` -/

/-- **C40**, soundness: a value that is found belongs to the last entry containing the point. -/
theorem C40_found (ops : List (ZOp I K V)) (p : I) {v : V} (h : (after ops).getLastValueAtPoint p = some v) :
    ∃ l1 k l2, (after ops).iter = l1 ++ (k, v) :: l2 ∧ Mem p k ∧ ∀ e ∈ l2, ¬ Mem p e.1 := by
  rcases last_ok (good_after ops).inv p with ⟨h1, -, -⟩ | ⟨w, m', l1, k, l2, h1, -, h2, h3, -, h4, -, -, -, -⟩
  · rw [h1] at h; cases h
  · rw [h1] at h; cases h
    exact ⟨l1, k, l2, h3, h2, h4⟩

/-- exactly when nothing is found: no entry contains the point, or some entry has points above it and every entry
containing the point ends there -/
theorem C40_none_iff (ops : List (ZOp I K V)) (p : I) : (after ops).getLastValueAtPoint p = none ↔
    (∀ e ∈ (after ops).iter, ¬ Mem p e.1) ∨
    ((∃ e ∈ (after ops).iter, ∃ x, Mem x e.1 ∧ p < x) ∧ ∀ e ∈ (after ops).iter, Mem p e.1 → ∀ x, Mem x e.1 → x ≤ p) := by
  have hg := (good_after ops).inv
  have hv := hg.flat.1
  constructor
  · intro h
    rcases last_ok hg p with ⟨-, -, h1⟩ | ⟨w, m', l1, k, l2, h1, -⟩
    · rcases h1 with h1 | ⟨h1, h2⟩
      · exact Or.inl ((hg.forall_iff (fun x => ¬ Mem p x)).1 h1)
      · right
        have h3 := (hg.forall_iff (fun x => Mem p x → stop x = p)).1 h2
        refine ⟨?_, fun e he hp x hx => by have := h3 e he hp; have := hx.2; order⟩
        by_contra hc
        have := (hg.forall_iff (fun x => ¬ p < stop x)).2 (fun e he hlt => hc ⟨e, he, stop e.1, ⟨hv e he, le_refl _⟩, hlt⟩)
        obtain ⟨e, he, hlt⟩ := h1
        exact this e he hlt
    · rw [h1] at h; cases h
  · intro h
    rcases last_ok hg p with ⟨h1, -, -⟩ | ⟨w, m', l1, k, l2, h1, -, h2, h3, -, h4, -, -, -, h5⟩
    · exact h1
    · exfalso
      have hm : (k, w) ∈ (after ops).iter := by rw [h3]; simp
      rcases h with h | ⟨⟨e, he, x, hx, hlt⟩, h'⟩
      · exact h _ hm h2
      · rcases h5 with h5 | h5
        · have := h' _ hm h2 (stop k) ⟨hv _ hm, le_refl _⟩; order
        · have := (hg.forall_iff (fun x => stop x ≤ p)).1 h5 e he
          have := hx.2
          order

/-- **C40** when some entry containing the point goes on above it, or no entry has points above it: the value is that
of the last entry containing the point. -/
theorem C40_get_last_value_partial (ops : List (ZOp I K V)) (p : I) (hc : ∃ e ∈ (after ops).iter, Mem p e.1)
    (h : (∃ e ∈ (after ops).iter, Mem p e.1 ∧ ∃ x, Mem x e.1 ∧ p < x) ∨ ∀ e ∈ (after ops).iter, ∀ x, Mem x e.1 → x ≤ p) :
    ∃ v l1 k l2, (after ops).getLastValueAtPoint p = some v ∧
      (after ops).iter = l1 ++ (k, v) :: l2 ∧ Mem p k ∧ ∀ e ∈ l2, ¬ Mem p e.1 := by
  cases hr : (after ops).getLastValueAtPoint p with
  | some v =>
    obtain ⟨l1, k, l2, h1, h2, h3⟩ := C40_found ops p hr
    exact ⟨v, l1, k, l2, rfl, h1, h2, h3⟩
  | none =>
    exfalso
    obtain ⟨e, he, hp⟩ := hc
    rcases (C40_none_iff ops p).1 hr with h1 | ⟨⟨d, hd, x, hx, hlt⟩, h1⟩
    · exact h1 e he hp
    · rcases h with ⟨f, hf, hpf, y, hy, hlt'⟩ | h
      · have := h1 f hf hpf y hy; order
      · have := h d hd x hx; order

omit [LawfulInterval I K] in
/-- **C40** is false as stated: with the entries `[0, 4]` and `[8, 12]`, nothing is found at the point 4. -/
theorem C40_misses_end_points : ∃ ops : List (ZOp Demo.U8 (Interval Demo.U8) Nat),
    (after ops).iter = [(Demo.iv 0 4, 1), (Demo.iv 8 12, 2)] ∧ (after ops).getLastValueAtPoint (Demo.u8 4) = none :=
  ⟨[.insertStrictBack (Demo.iv 0 4) 1 0, .insertStrictBack (Demo.iv 8 12) 2 0], by decide, by decide⟩

example : (after Demo.zops).getLastValueAtPoint (Demo.u8 30) = some 7 := by decide
example : (after Demo.zops).getLastValueAtPoint (Demo.u8 7) = some 3 := by decide

/-! ## C41: `remove_last_value_at_point` -/

/-- **C41** -/
theorem C41_remove_last_value (ops : List (ZOp I K V)) (p : I) :
    ((after ops).getLastValueAtPoint p = none ∧ (after ops).removeLastValueAtPoint p = .ok (after ops, none)) ∨
    ∃ v m' l1 k l2, (after ops).getLastValueAtPoint p = some v ∧ (after ops).removeLastValueAtPoint p = .ok (m', some v) ∧
      (after ops).iter = l1 ++ (k, v) :: l2 ∧ m'.iter = l1 ++ l2 ∧ Mem p k ∧ ∀ e ∈ l2, ¬ Mem p e.1 := by
  rcases last_ok (good_after ops).inv p with ⟨h1, h2, -⟩ | ⟨w, m', l1, k, l2, h1, h2, h3, h4, h5, h6, -⟩
  · exact Or.inl ⟨h1, h2⟩
  · exact Or.inr ⟨w, m', l1, k, l2, h1, h2, h4, h5, h3, h6⟩

example : ∃ m', (after Demo.zops).removeLastValueAtPoint (Demo.u8 30) = .ok (m', some 7) ∧
    m'.iter = [(Demo.iv 0 2, 1), (Demo.iv 6 8, 3), (Demo.iv 30 30, 6)] := ⟨_, rfl, by decide⟩

/-! ## C42: `len` and `is_empty` -/

/-- what `len()` is: the number of entries plus the number of entries ever removed by `remove_last_value_at_point` -/
theorem C42_len_exact (ops : List (ZOp I K V)) :
    (after ops).length = (after ops).iter.length + (outputs ops).countP isRemoval := by
  have := (run_ok good_new ops).2.1
  have e1 : (new : ZosditMap K V).iter.length = 0 := rfl
  have e2 : (new : ZosditMap K V).len = 0 := rfl
  rw [e1, e2] at this
  simp only [length, after, outputs]; omega

/-- **C42** for histories without `remove_last_value_at_point` -/
theorem C42_len_partial (ops : List (ZOp I K V)) (h : ∀ op ∈ ops, op.isRemove = false) :
    (after ops).length = (after ops).iter.length ∧ ((after ops).isEmpty = true ↔ (after ops).iter = []) := by
  have h1 := C42_len_exact ops
  have h2 : (outputs ops).countP isRemoval ≤ ops.countP ZOp.isRemove := (run_ok (good_new (K := K) (V := V)) ops).2.2.1
  have h3 : ops.countP ZOp.isRemove = 0 := by
    rw [List.countP_eq_zero]; intro op hop; simp [h op hop]
  have h4 : (after ops).length = (after ops).iter.length := by omega
  refine ⟨h4, ?_⟩
  rw [← List.length_eq_zero_iff, ← h4, isEmpty, length, beq_iff_eq]

/-- `is_empty()` is never wrong about a map that holds entries -/
theorem C42_empty_sound (ops : List (ZOp I K V)) (h : (after ops).isEmpty = true) : (after ops).iter = [] := by
  have h1 := C42_len_exact ops
  rw [isEmpty, beq_iff_eq] at h
  rw [← List.length_eq_zero_iff]
  simp only [length] at h1; omega

omit [LawfulInterval I K] in
/-- **C42** is false as stated: after removing the only entry, `len()` is 1 and `is_empty()` is false. -/
theorem C42_len_wrong_after_remove : ∃ ops : List (ZOp Demo.U8 (Interval Demo.U8) Nat),
    (after ops).iter = [] ∧ (after ops).length = 1 ∧ (after ops).isEmpty = false :=
  ⟨[.insertStrictBack (Demo.iv 0 4) 1 0, .removeLastValueAtPoint (Demo.u8 2)], by decide, by decide, by decide⟩

example : (after Demo.zops).length = 5 ∧ (after Demo.zops).iter.length = 4 := by decide
example : ∀ op ∈ Demo.zdup, op.isRemove = false := by decide

/-! ## C43: `cut` -/

/-- **C43** when no entry has points before `q`, or one that has reaches `q`: every entry is cut. -/
theorem C43_cut_partial (ops : List (ZOp I K V)) {q : Q} (hq : Valid q)
    (h : (∃ e ∈ (after ops).iter, ∃ p, Mem p e.1 ∧ ∀ x, Mem x q → p < x) →
      ∃ e ∈ (after ops).iter, (∃ p, Mem p e.1 ∧ ∀ x, Mem x q → p < x) ∧ Overlap e.1 q) :
    ∃ m' returned, (after ops).cut q = .ok (m', returned) ∧ CutAll q (after ops).iter m'.iter returned := by
  have hq' := valid_iff.1 hq
  have hg := good_after ops
  have hv := hg.inv.flat.1
  rcases cut_ok hg.inv hq' hg.len with ⟨⟨e, he, h1⟩, h2, -⟩ | ⟨-, m', h1, h2, -⟩
  · exfalso
    obtain ⟨f, hf, ⟨p, hp, hp'⟩, ho⟩ := h (by
      by_contra hc
      have := (hg.inv.forall_iff (fun x => ¬ start x < start q)).2 (fun d hd hlt =>
        hc ⟨d, hd, start d.1, ⟨le_refl _, hv d hd⟩, fun x hx => lt_of_lt_of_le hlt hx.1⟩)
      exact this e he h1)
    have h3 := (hg.inv.forall_iff (fun x => start x < start q → stop x < start q)).1 h2 f hf
      (lt_of_le_of_lt hp.1 (hp' _ ⟨le_refl _, hq'⟩))
    have := ((overlap_iff (hv f hf) hq').1 ho).2
    order
  · refine ⟨m', _, h1, ?_⟩
    rw [h2]
    exact cutAll_ok hq' hv

/-- what happens otherwise: if some entry has points before `q` but no such entry reaches `q`, `cut` does nothing,
whatever other entries overlap `q` -/
theorem C43_cut_noop (ops : List (ZOp I K V)) {q : Q} (hq : Valid q)
    (h1 : ∃ e ∈ (after ops).iter, ∃ p, Mem p e.1 ∧ ∀ x, Mem x q → p < x)
    (h2 : ∀ e ∈ (after ops).iter, (∃ p, Mem p e.1 ∧ ∀ x, Mem x q → p < x) → ¬ Overlap e.1 q) :
    (after ops).cut q = .ok (after ops, []) := by
  have hq' := valid_iff.1 hq
  have hg := good_after ops
  have hv := hg.inv.flat.1
  rcases cut_ok hg.inv hq' hg.len with ⟨-, -, h⟩ | ⟨h, -⟩
  · exact h
  · exfalso
    obtain ⟨e, he, p, hp, hp'⟩ := h1
    rcases h with h | ⟨d, hd, h3, h4⟩
    · have := (hg.inv.forall_iff (fun x => start q ≤ start x)).1 h e he
      have := hp' _ ⟨le_refl _, hq'⟩
      have := hp.1
      order
    · have := (hg.inv.forall_iff (fun x => start x < start q → ¬ start q ≤ stop x)).2 (fun f hf hlt hle =>
        h2 f hf ⟨start f.1, ⟨le_refl _, hv f hf⟩, fun x hx => lt_of_lt_of_le hlt hx.1⟩
          ((overlap_iff (hv f hf) hq').2 ⟨by order, hle⟩))
      exact this d hd h3 h4

omit [LawfulInterval I K] in
/-- **C43** is false as stated: with the entries `[0, 2]` and `[5, 8]`, `cut([4, 6])` does nothing. -/
theorem C43_cut_misses : ∃ ops : List (ZOp Demo.U8 (Interval Demo.U8) Nat),
    (after ops).iter = [(Demo.iv 0 2, 1), (Demo.iv 5 8, 2)] ∧ (after ops).cut (Demo.iv 4 6) = .ok (after ops, []) :=
  ⟨[.insertStrictBack (Demo.iv 0 2) 1 0, .insertStrictBack (Demo.iv 5 8) 2 0], by decide, by rfl⟩

/-- the hypothesis of `C43_cut_partial` is met by a cut through two entries -/
example : ∃ m' r, (after (Demo.zops.take 8)).cut (Demo.iv 3 5) = .ok (m', r) ∧
    (after (Demo.zops.take 8)).iter = [(Demo.iv 0 4, 1), (Demo.iv 4 4, 2), (Demo.iv 4 4, 4), (Demo.iv 4 8, 3), (Demo.iv 30 30, 6), (Demo.iv 30 30, 7)] ∧
    m'.iter = [(Demo.iv 0 2, 1), (Demo.iv 6 8, 3), (Demo.iv 30 30, 6), (Demo.iv 30 30, 7)] ∧
    r = [(Demo.iv 3 4, 1), (Demo.iv 4 4, 2), (Demo.iv 4 4, 4), (Demo.iv 4 5, 3)] := ⟨_, _, rfl, by decide, by decide, by decide⟩

/-! ## C44: `overlapping` -/

open Classical in
/-- **C44** -/
theorem C44_overlapping (ops : List (ZOp I K V)) {q : Q} (hq : Valid q) :
    (after ops).overlapping q = .ok ((after ops).iter.filter (fun e => Overlap e.1 q)) := by
  have hq' := valid_iff.1 hq
  have hg := (good_after ops).inv
  rw [overlapping_ok hg hq']
  congr 1
  refine List.filter_congr fun e he => ?_
  rw [decide_eq_decide]
  exact (overlap_iff (hg.flat.1 e he) hq').symm

example : (after Demo.zops).overlapping (Demo.iv 7 30) = .ok [(Demo.iv 6 8, 3), (Demo.iv 30 30, 6), (Demo.iv 30 30, 7)] := by decide

/-! ## C45: `from_iter_strict_back` -/

section
/-- `e` has the end points of `q` (a decidable form of `SameInterval`) -/
def sameEnds (q : Interval I) (e : K × V) : Bool := decide (start e.1 = q.start ∧ stop e.1 = q.stop)

omit [LawfulInterval I K] in
theorem fromIterFrom_append {m : ZosditMap K V} (h : Good m) (hn : NoDup m.inner) (picks : Nat → Nat) {pre : List (K × V)}
    (hv : ∀ e ∈ pre, Valid e.1) (hz : pre.Pairwise (fun a b => ZeroOverlap a.1 b.1))
    (hm : ∀ e ∈ pre, ∀ d ∈ m.iter, ZeroOverlap d.1 e.1) (rest : List (K × V)) :
    ∃ (m' : ZosditMap K V) (picks' : Nat → Nat), m.fromIterFrom picks (pre ++ rest) = m'.fromIterFrom picks' rest ∧
      Good m' ∧ NoDup m'.inner ∧ m'.len = m.len + pre.length ∧ m'.iter.length = m.iter.length + pre.length ∧
      (∀ q : Interval I, (m'.iter.filter (sameEnds q)).map Prod.snd =
        (m.iter.filter (sameEnds q)).map Prod.snd ++ (pre.filter (sameEnds q)).map Prod.snd) ∧
      (∀ e ∈ m'.iter, ∃ d, (d ∈ m.iter ∨ d ∈ pre) ∧ d.1 = e.1) := by
  induction pre generalizing m picks with
  | nil => exact ⟨m, picks, rfl, h, hn, rfl, rfl, by simp, fun e he => ⟨e, Or.inl he, rfl⟩⟩
  | cons a pre ih =>
    obtain ⟨k, v⟩ := a
    obtain ⟨z1, z2⟩ := List.pairwise_cons.1 hz
    have hk := valid_iff.1 (hv (k, v) (by simp))
    have hkm := hm (k, v) (by simp)
    simp only at hk hkm z1
    rcases insert_step h hk v (picks 0) with ⟨⟨e, he, hc⟩, -⟩ |
      ⟨-, m', l1, k', l2, e1, e2, e3, e4, e5, e6, e7, e8, e9, e10, e11, e12, e13⟩
    · exact absurd ((zeroOverlap_iff (h.inv.flat.1 e he) hk).1 (hkm e he)) hc
    · have hmem : ∀ e ∈ m'.iter, e = (k', v) ∨ e ∈ m.iter := by
        intro e he
        rw [e4] at he; rw [e3]
        simp only [List.mem_append, List.mem_cons] at he ⊢
        tauto
      obtain ⟨m'', picks', i1, i2, i3, i4, i5, i6, i7⟩ := ih e2 (e12 hn) (fun i => picks (i + 1)) (fun e he => hv e (by simp [he])) z2
        (fun e he d hd => by
          have hve := valid_iff.1 (hv e (by simp [he]))
          rcases hmem d hd with rfl | hd
          · rw [zeroOverlap_iff (by simpa [e6, e7] using hk) hve]
            simp only [e6, e7]
            exact (zeroOverlap_iff hk hve).1 (z1 e he)
          · exact hm e (by simp [he]) d hd)
      refine ⟨m'', picks', ?_, i2, i3, ?_, ?_, ?_, ?_⟩
      · rw [List.cons_append, fromIterFrom, e1]; exact i1
      · rw [i4, e5, List.length_cons]; omega
      · rw [i5, e3, e4]; simp only [List.length_append, List.length_cons]; omega
      · intro q
        rw [i6, e3, e4, List.filter_append, List.filter_append, List.filter_cons, List.filter_cons]
        have hs : sameEnds q (k', v) = sameEnds q (k, v) := by simp [sameEnds, e6, e7]
        rw [hs]
        by_cases hc : sameEnds q (k, v) = true
        · have hl2 : l2.filter (sameEnds q) = [] := by
            rw [List.filter_eq_nil_iff]
            intro e he he'
            simp only [sameEnds, decide_eq_true_eq] at hc he'
            exact e11 (Or.inl hn) e he ⟨by rw [he'.1, hc.1], by rw [he'.2, hc.2]⟩
          simp [hc, hl2]
        · simp [hc]
      · intro e he
        obtain ⟨d, hd, hde⟩ := i7 e he
        rcases hd with hd | hd
        · rcases hmem d hd with rfl | hd
          · rcases e8 with rfl | ⟨f, hf, hfk⟩
            · exact ⟨(k', v), Or.inr (by simp), hde⟩
            · exact ⟨f, Or.inl hf, by rw [hfk]; exact hde⟩
          · exact ⟨d, Or.inl hd, hde⟩
        · exact ⟨d, Or.inr (by simp [hd]), hde⟩

private theorem either {α : Type} {R : α → α → Prop} {l : List α} (h : l.Pairwise R) {a b : α} (ha : a ∈ l) (hb : b ∈ l)
    (hne : a ≠ b) : R a b ∨ R b a := by
  induction h with
  | nil => simp at ha
  | cons h _ ih =>
    rcases List.mem_cons.1 ha with rfl | ha' <;> rcases List.mem_cons.1 hb with rfl | hb'
    · exact absurd rfl hne
    · exact Or.inl (h b hb')
    · exact Or.inr (h a ha')
    · exact ih ha' hb'

omit [LawfulInterval I K] in
/-- in a map whose value stores are for different intervals, entries with the same interval have the same key -/
theorem same_key {m : ZosditMap K V} (hg : Good m) (hnd : NoDup m.inner) {a b : K × V} (ha : a ∈ m.iter) (hb : b ∈ m.iter)
    (h1 : start a.1 = start b.1) (h2 : stop a.1 = stop b.1) : a.1 = b.1 := by
  obtain ⟨d, hd, hd1, -⟩ := mem_flatten.1 ha
  obtain ⟨d', hd', hd1', -⟩ := mem_flatten.1 hb
  by_contra hne
  have hdd : d ≠ d' := fun hc => hne (by rw [← hd1, ← hd1', hc])
  have hva := hg.inv.flat.1 a ha
  rcases either (hg.inv.seq.and hnd) hd hd' hdd with ⟨g1, g2⟩ | ⟨g1, g2⟩
  · rw [hd1, hd1'] at *; rw [h1] at *; rw [h2] at *; order
  · rw [hd1, hd1'] at *; rw [h1] at *; rw [h2] at *; order

omit [LawfulInterval I K] in
/-- entries built from a list have the key that was given first for their interval -/
theorem fromIterFrom_keys {m : ZosditMap K V} (h : Good m) (hn : NoDup m.inner) (picks : Nat → Nat) {pre : List (K × V)}
    (hv : ∀ e ∈ pre, Valid e.1) {m' : ZosditMap K V} (hm' : m.fromIterFrom picks pre = .ok (.ok m')) :
    NoDup m'.inner ∧ ∀ e ∈ m'.iter, (∃ d ∈ m.iter, d.1 = e.1) ∨
      (∀ d ∈ m.iter, ¬ (start d.1 = start e.1 ∧ stop d.1 = stop e.1)) ∧
      ∃ l1 d l2, pre = l1 ++ d :: l2 ∧ d.1 = e.1 ∧ ∀ x ∈ l1, ¬ (start x.1 = start e.1 ∧ stop x.1 = stop e.1) := by
  induction pre generalizing m picks with
  | nil => cases hm'; exact ⟨hn, fun e he => Or.inl ⟨e, he, rfl⟩⟩
  | cons a pre ih =>
    obtain ⟨k, v⟩ := a
    have hk := valid_iff.1 (hv (k, v) (by simp))
    simp only at hk
    rcases insert_step h hk v (picks 0) with ⟨-, h8⟩ |
      ⟨-, m1, l1, k', l2, e1, e2, e3, e4, e5, e6, e7, e8, e9, e10, e11, e12, e13⟩
    · rw [fromIterFrom, h8] at hm'; cases hm'
    · rw [fromIterFrom, e1] at hm'
      obtain ⟨i1, i2⟩ := ih e2 (e12 hn) (fun i => picks (i + 1)) (fun e he => hv e (by simp [he])) hm'
      refine ⟨i1, fun e he => ?_⟩
      have hnew : (k', v) ∈ m1.iter := by rw [e4]; simp
      have hold : ∀ d ∈ m.iter, d ∈ m1.iter := fun d hd => by
        rw [e4]; rw [e3] at hd; simp only [List.mem_append, List.mem_cons] at hd ⊢; tauto
      rcases i2 e he with ⟨d, hd, hde⟩ | ⟨hno, l1', d, l2', rfl, hde, hx⟩
      · rw [e4] at hd
        simp only [List.mem_append, List.mem_cons] at hd
        have hd' : d = (k', v) ∨ d ∈ m.iter := by rw [e3]; simp only [List.mem_append]; tauto
        rcases hd' with rfl | hd'
        · by_cases hs : ∃ f ∈ m.iter, start f.1 = start e.1 ∧ stop f.1 = stop e.1
          · obtain ⟨f, hf, hf1, hf2⟩ := hs
            refine Or.inl ⟨f, hf, ?_⟩
            rw [← hde]
            exact same_key e2 (e12 hn) (hold f hf) hnew (by rw [hf1, ← hde]) (by rw [hf2, ← hde])
          · rcases e8 with rfl | ⟨f, hf, hfk⟩
            · exact Or.inr ⟨fun d hd hc => hs ⟨d, hd, hc⟩, [], _, _, rfl, hde, by simp⟩
            · exact Or.inl ⟨f, hf, by rw [hfk]; exact hde⟩
        · exact Or.inl ⟨d, hd', hde⟩
      · refine Or.inr ⟨fun d hd => hno d (hold d hd), (k, v) :: l1', d, l2', rfl, hde, fun x hx' => ?_⟩
        rcases List.mem_cons.1 hx' with rfl | hx'
        · have := hno _ hnew
          simp only [e6, e7] at this; exact this
        · exact hx x hx'

open Classical in
omit [LawfulInterval I K] in
/-- **C45**: valid, pairwise zero-overlapping items are all inserted: for every interval, the values of the entries with
this interval are those of the items with this interval, in input order; the key of every entry is the one given first for its interval;
the entries form a zero-overlap sequence; and the length is right. -/
theorem C45_from_iter_strict_back {l : List (K × V)} (hv : ∀ e ∈ l, Valid e.1)
    (hz : l.Pairwise (fun a b => ZeroOverlap a.1 b.1)) (picks : Nat → Nat) :
    ∃ m, fromIterStrictBack l picks = .ok (.ok m) ∧ fromSliceStrictBack l picks = .ok (.ok m) ∧ ZWF m.iter ∧
      (∀ q : Interval I, Valid q → (m.iter.filter (fun e => SameInterval e.1 q)).map Prod.snd =
        (l.filter (fun e => SameInterval e.1 q)).map Prod.snd) ∧
      (∀ e ∈ m.iter, GivenFirst e.1 l) ∧ m.iter.length = l.length ∧ m.length = l.length := by
  obtain ⟨m, picks', h1, h2, h3, h4, h5, h6, h7⟩ := fromIterFrom_append (good_new (I := I) (K := K) (V := V)) (by simp [NoDup, new])
    picks hv hz (by simp [new, iter, flatten]) []
  rw [List.append_nil] at h1
  have h1' : fromIterStrictBack l picks = .ok (.ok m) := by rw [fromIterStrictBack, h1]; rfl
  refine ⟨m, h1', h1', zwf_iff.2 h2.inv.flat, ?_, ?_, ?_, ?_⟩
  · intro q hq
    have hq' := valid_iff.1 hq
    have h8 := h6 q
    have c1 : m.iter.filter (fun e => decide (SameInterval e.1 q)) = m.iter.filter (sameEnds q) :=
      List.filter_congr fun e he => by
        rw [sameEnds, decide_eq_decide]; exact sameInterval_iff (h2.inv.flat.1 e he) hq'
    have c2 : l.filter (fun e => decide (SameInterval e.1 q)) = l.filter (sameEnds q) :=
      List.filter_congr fun e he => by
        rw [sameEnds, decide_eq_decide]; exact sameInterval_iff (valid_iff.1 (hv e he)) hq'
    rw [c1, c2, h8]
    simp [new, iter, flatten]
  · intro e he
    rcases (fromIterFrom_keys (good_new (I := I) (K := K) (V := V)) (by simp [NoDup, new]) picks hv h1').2 e he with ⟨d, hd, -⟩ |
      ⟨-, l1, d, l2, e1, e2, e3⟩
    · simp [new, iter, flatten] at hd
    · refine ⟨l1, d, l2, e1, e2, fun x hx => ?_⟩
      rw [sameInterval_iff (valid_iff.1 (hv x (by rw [e1]; simp [hx]))) (h2.inv.flat.1 e he)]
      exact e3 x hx
  · rw [h5]; simp [new, iter, flatten]
  · rw [length, h4]; simp [new]

omit [LawfulInterval I K] in
/-- **C45**: with a first offending item the result is the error carrying that item's value if it does not zero-overlap
an earlier one, and the panic if it is invalid; later items play no role. -/
theorem C45_first_offender {pre post : List (K × V)} {k : K} {v : V} (hv : ∀ e ∈ pre, Valid e.1)
    (hz : pre.Pairwise (fun a b => ZeroOverlap a.1 b.1)) (picks : Nat → Nat) :
    (Valid k → (∃ e ∈ pre, ¬ ZeroOverlap e.1 k) → fromIterStrictBack (pre ++ (k, v) :: post) picks = .ok (.error ⟨v⟩)) ∧
    (¬ Valid k → fromIterStrictBack (pre ++ (k, v) :: post) picks = .error .invalidInterval) := by
  obtain ⟨m, picks', h1, h2, h3, h4, h5, h6, h7⟩ := fromIterFrom_append (good_new (I := I) (K := K) (V := V)) (by simp [NoDup, new])
    picks hv hz (by simp [new, iter, flatten]) ((k, v) :: post)
  rw [fromIterStrictBack, h1]
  constructor
  · rintro hk ⟨e, he, ho⟩
    have hk' := valid_iff.1 hk
    have hve := valid_iff.1 (hv e he)
    rcases insert_step h2 hk' v (picks' 0) with ⟨-, h8⟩ | ⟨h8, -⟩
    · rw [fromIterFrom, h8]; rfl
    · exfalso
      have h9 := h6 ⟨start e.1, stop e.1⟩
      have h10 : e.2 ∈ (pre.filter (sameEnds ⟨start e.1, stop e.1⟩)).map Prod.snd :=
        List.mem_map.2 ⟨e, List.mem_filter.2 ⟨he, by simp [sameEnds]⟩, rfl⟩
      have h11 : e.2 ∈ (m.iter.filter (sameEnds ⟨start e.1, stop e.1⟩)).map Prod.snd := by
        rw [h9]; exact List.mem_append_right _ h10
      obtain ⟨d, hd, -⟩ := List.mem_map.1 h11
      obtain ⟨hd1, hd2⟩ := List.mem_filter.1 hd
      simp only [sameEnds, decide_eq_true_eq] at hd2
      have := h8 d hd1
      rw [hd2.1, hd2.2] at this
      exact ho ((zeroOverlap_iff hve hk').2 this)
  · intro hk
    rw [fromIterFrom, insertStrictBack, invalidIntervalPanic_err (by rwa [valid_iff] at hk)]; rfl

omit [LawfulInterval I K] in
/-- **C45**: the same for a slice. -/
theorem C45_from_slice_first_offender {pre post : List (K × V)} {k : K} {v : V} (hv : ∀ e ∈ pre, Valid e.1)
    (hz : pre.Pairwise (fun a b => ZeroOverlap a.1 b.1)) (picks : Nat → Nat) :
    (Valid k → (∃ e ∈ pre, ¬ ZeroOverlap e.1 k) → fromSliceStrictBack (pre ++ (k, v) :: post) picks = .ok (.error ⟨v⟩)) ∧
    (¬ Valid k → fromSliceStrictBack (pre ++ (k, v) :: post) picks = .error .invalidInterval) :=
  C45_first_offender hv hz picks

omit [LawfulInterval I K] in
theorem exists_first_non_zero_overlap {l : List (K × V)} (h : ¬ l.Pairwise (fun a b => ZeroOverlap a.1 b.1)) :
    ∃ pre a post, l = pre ++ a :: post ∧ pre.Pairwise (fun a b => ZeroOverlap a.1 b.1) ∧ ∃ e ∈ pre, ¬ ZeroOverlap e.1 a.1 := by
  rw [← List.reverse_reverse l] at h ⊢
  generalize l.reverse = l at h ⊢
  induction l with
  | nil => simp at h
  | cons a l ih =>
    rw [List.reverse_cons] at h ⊢
    generalize l.reverse = l at *
    by_cases hl : l.Pairwise (fun a b => ZeroOverlap a.1 b.1)
    · refine ⟨l, a, [], rfl, hl, ?_⟩
      by_contra hc
      simp only [not_exists, not_and, not_not] at hc
      refine h (List.pairwise_append.2 ⟨hl, by simp, ?_⟩)
      rintro e he b hb
      rw [List.mem_singleton] at hb; subst hb
      exact hc e he
    · obtain ⟨pre, b, post, rfl, h1, h2⟩ := ih hl
      exact ⟨pre, b, post ++ [a], by simp, h1, h2⟩

omit [LawfulInterval I K] in
/-- **C45**: on valid intervals `from_iter_strict_back` succeeds iff every item zero-overlaps all earlier ones. -/
theorem C45_from_iter_strict_back_iff {l : List (K × V)} (hv : ∀ e ∈ l, Valid e.1) (picks : Nat → Nat) :
    (∃ m, fromIterStrictBack l picks = .ok (.ok m)) ↔ l.Pairwise (fun a b => ZeroOverlap a.1 b.1) := by
  constructor
  · rintro ⟨m, hm⟩
    by_contra h
    obtain ⟨pre, a, post, rfl, h1, h2⟩ := exists_first_non_zero_overlap h
    have := (C45_first_offender (k := a.1) (v := a.2) (post := post)
      (fun e he => hv e (by simp [he])) h1 picks).1 (hv a (by simp)) h2
    rw [this] at hm; cases hm
  · intro h
    obtain ⟨m, h1, -⟩ := C45_from_iter_strict_back hv h picks
    exact ⟨m, h1⟩

example : ∃ m, fromIterStrictBack [(Demo.iv 4 8, 1), (Demo.iv 4 4, 2), (Demo.iv 0 4, 3), (Demo.iv 4 4, 4)] (fun _ => 0) = .ok (.ok m) ∧
    m.iter = [(Demo.iv 0 4, 3), (Demo.iv 4 4, 2), (Demo.iv 4 4, 4), (Demo.iv 4 8, 1)] := ⟨_, rfl, by decide⟩
/-- the third item lies strictly inside the first; the fourth, invalid, is not reached -/
example : fromIterStrictBack [(Demo.iv 4 8, 1), (Demo.iv 4 4, 2), (Demo.iv 5 5, 3), (Demo.iv 9 8, 4)] (fun _ => 0) = .ok (.error ⟨3⟩) := by
  decide
end

/-! ## C51: `first_key_value` and `last_key_value` -/

/-- **C51** -/
theorem C51_first_last (ops : List (ZOp I K V)) :
    (after ops).firstKeyValue = (after ops).iter.head? ∧ (after ops).lastKeyValue = (after ops).iter.getLast? := by
  have hs := (good_after ops).inv.store
  generalize after ops = m at *
  obtain ⟨n, l⟩ := m
  simp only [firstKeyValue, lastKeyValue, iter] at *
  constructor
  · cases l with
    | nil => rfl
    | cons e l =>
      obtain ⟨k, vs⟩ := e
      cases vs with
      | nil => exact absurd rfl (hs (k, []) (by simp))
      | cons v vs => rfl
  · rcases List.eq_nil_or_concat l with rfl | ⟨l, ⟨k, vs⟩, rfl⟩
    · rfl
    · rcases List.eq_nil_or_concat vs with rfl | ⟨vs, v, rfl⟩
      · exact absurd rfl (hs (k, []) (by simp))
      · simp [flatten_append, flatten_cons, flatten_nil]

example : (after Demo.zops).firstKeyValue = some (Demo.iv 0 2, 1) ∧ (after Demo.zops).lastKeyValue = some (Demo.iv 30 30, 7) := by
  decide

end Nodit
