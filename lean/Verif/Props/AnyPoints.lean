import Verif.Props.CustomTypes
import Verif.Props.ZosditExact
/-!
# C95: point types that are not discrete

`DiscreteFinite` asks for the next and the previous point. Types such as fractions or coarse timestamps have none, or a
user's `up`/`down`/`MIN`/`MAX` can be wrong. These theorems do *not* assume `LawfulPoint`: `up`, `down`, `MIN` and `MAX` are
arbitrary; only `Ord` is a total order.
-/
set_option linter.unusedSectionVars false
namespace Nodit
namespace Spec
variable {I K V : Type}

/-- the calls that never ask for a neighbouring point (the point lookups do, for points that are not covered) -/
def Op.NoNeighbours : Op I K V → Prop
  | .insertStrict .. | .insertMergeOverlapping .. | .removeOverlapping _ | .overlapping _ | .overlaps _ | .overlappingMut ..
  | .getAtPointMut .. | .iterMut _ | .iter | .len | .isEmpty | .firstKeyValue | .lastKeyValue => True
  | _ => False
end Spec
open Spec PointType NoditMap

variable {I K Q V : Type} [PointType I] [IntervalType I K] [IntervalType I Q]

/-- one such call refines the reference machine, for any point type -/
theorem step_refines_any_points [LawfulInterval I K] [BEq V] {m : NoditMap K V} (h : WF m.iter) (op : Op I K V) (hop : op.NoNeighbours) :
    (op.Bad ∧ m.step op = .error .invalidInterval) ∨
    (¬ op.Bad ∧ ∃ m' o, m.step op = .ok (m', o) ∧ WF m'.iter ∧ SpecOp m.entrySet op m'.entrySet o) := by
  by_cases hb : op.Bad
  · left
    refine ⟨hb, ?_⟩
    cases op with
    | insertStrict k v => simp only [step, panic_insertStrict hb]; rfl
    | insertMergeOverlapping k v => simp only [step, panic_insertMergeOverlapping hb]; rfl
    | removeOverlapping q => simp only [step, panic_removeOverlapping hb]; rfl
    | overlapping q => simp only [step, panic_overlapping hb]; rfl
    | overlaps q => simp only [step, panic_overlaps hb]; rfl
    | overlappingMut q f => simp only [step, panic_overlappingMut hb]; rfl
    | _ => first | exact hop.elim | exact False.elim hb
  · right
    refine ⟨hb, ?_⟩
    cases op with
    | insertStrict k v =>
      obtain ⟨m', r, h1, h2, h3, h4⟩ := spec_insertStrict h (not_not.1 hb) v
      refine ⟨m', _, by simp only [step, h1]; rfl, h2, fun he => ?_, fun hn => ?_⟩
      · obtain ⟨rfl, rfl⟩ := h3 he; exact ⟨rfl, rfl⟩
      · obtain ⟨e1, rfl⟩ := h4 hn; exact ⟨e1, rfl⟩
    | insertMergeOverlapping k v =>
      obtain ⟨m', r, h1, h2, h3, h4⟩ := spec_insertMergeOverlapping h (not_not.1 hb) v
      exact ⟨m', _, by simp only [step, h1]; rfl, h2, r, h3, h4, rfl⟩
    | removeOverlapping q =>
      obtain ⟨m', r, h1, h2, h3, h4⟩ := spec_removeOverlapping h (not_not.1 hb)
      exact ⟨m', _, by simp only [step, h1]; rfl, h2, r, h4, h3, rfl⟩
    | overlapping q =>
      obtain ⟨r, h1, h2⟩ := spec_overlapping h (not_not.1 hb)
      exact ⟨m, _, by simp only [step, h1]; rfl, h, r, h2, rfl, rfl⟩
    | overlaps q =>
      obtain ⟨r, h1, h2⟩ := spec_overlaps h (not_not.1 hb)
      exact ⟨m, _, by simp only [step, h1]; rfl, h, r, h2, rfl, rfl⟩
    | overlappingMut q f =>
      obtain ⟨m', h1, h2, -, h3⟩ := spec_overlappingMut h (not_not.1 hb) f
      exact ⟨m', _, by simp only [step, h1]; rfl, h2, h3, rfl⟩
    | getAtPointMut p f =>
      obtain ⟨h1, -, h2, h3⟩ := spec_getAtPointMut h p f
      exact ⟨_, _, rfl, h1, _, h2, h3, rfl⟩
    | iterMut f =>
      refine ⟨_, _, rfl, wf_iff_chain.2 ((wf_iff_chain.1 h).map_value (fun e => f e.1 e.2)), ?_, rfl⟩
      ext x
      change x ∈ List.map _ _ ↔ _
      rw [List.mem_map]
      exact exists_congr fun d => and_congr_right fun _ => eq_comm
    | iter => exact ⟨m, _, rfl, h, _, ⟨h, fun _ => Iff.rfl⟩, rfl, rfl⟩
    | len => exact ⟨m, _, rfl, h, _, ⟨h, fun _ => Iff.rfl⟩, rfl, rfl⟩
    | isEmpty =>
      refine ⟨m, _, rfl, h, _, ?_, rfl, rfl⟩
      rw [NoditMap.isEmpty, List.isEmpty_iff, List.eq_nil_iff_forall_not_mem]
      rfl
    | firstKeyValue => exact ⟨m, _, rfl, h, _, spec_first h, rfl, rfl⟩
    | lastKeyValue => exact ⟨m, _, rfl, h, _, spec_last h, rfl, rfl⟩
    | _ => exact hop.elim

/-- **C95**: for every totally ordered point type, discrete or not and whatever its `up`, `down`, `MIN` and `MAX` are, every
history of calls that never ask for a neighbouring point refines the reference machine over sets of entries, and keeps the
entries valid, ascending and disjoint. -/
theorem C95_any_points [LawfulInterval I K] [BEq V] (ops : List (Op I K V)) (hops : ∀ op ∈ ops, op.NoNeighbours) :
    WF ((new : NoditMap K V).run ops).1.iter ∧
      SpecRun ∅ ops ((new : NoditMap K V).run ops).1.entrySet ((new : NoditMap K V).run ops).2 := by
  have : ∀ {m : NoditMap K V}, WF m.iter → WF (m.run ops).1.iter ∧ SpecRun m.entrySet ops (m.run ops).1.entrySet (m.run ops).2 := by
    induction ops with
    | nil => exact fun h => ⟨h, SpecRun.nil _⟩
    | cons op ops ih =>
      intro m h
      have ih := fun {m : NoditMap K V} => ih (fun o ho => hops o (List.mem_cons_of_mem _ ho)) (m := m)
      rcases step_refines_any_points h op (hops op (List.mem_cons_self ..)) with ⟨hb, he⟩ | ⟨hb, m', o, ho, hw, hs⟩
      · obtain ⟨h1, h2⟩ := ih h
        simp only [run, he]
        exact ⟨h1, SpecRun.cons (Or.inl ⟨hb, rfl, rfl⟩) h2⟩
      · obtain ⟨h1, h2⟩ := ih hw
        simp only [run, ho]
        exact ⟨h1, SpecRun.cons (Or.inr ⟨hb, o, rfl, hs⟩) h2⟩
  have h0 := this wf_new
  have he : (new : NoditMap K V).entrySet = ∅ := by ext; simp [entrySet, new, iter]
  rwa [he] at h0

/-- what a failed lookup does: it looks for the gap, and that panics only where `up` or `down` is `None` -/
theorem getGapAtRaw_any {m : NoditMap K V} (h : WF m.iter) {p : I} (hp : ∀ e ∈ m.iter, ¬ Mem p e.1) :
    (∃ g, m.getGapAtRaw p = .ok g) ∨ (m.getGapAtRaw p = .error .unwrapNone ∧
      ((∃ e ∈ m.iter, stop e.1 < p ∧ up (stop e.1) = none) ∨ (∃ e ∈ m.iter, p < start e.1 ∧ down (start e.1) = none))) := by
  have hc := wf_iff_chain.1 h
  unfold getGapAtRaw
  simp only [upperBound_key hc, lowerBound_key hc]
  have hl : ∀ a, (m.inner.filter (fun e => decide (start e.1 ≤ p))).getLast? = some a → a ∈ m.iter ∧ stop a.1 < p := by
    intro a ha
    have := List.mem_filter.1 (List.mem_of_getLast? ha)
    refine ⟨this.1, not_le.1 fun hle => hp a this.1 ⟨by simpa using this.2, hle⟩⟩
  have hr : ∀ a, (m.inner.filter (fun e => decide (p ≤ stop e.1))).head? = some a → a ∈ m.iter ∧ p < start a.1 := by
    intro a ha
    have := List.mem_filter.1 (List.mem_of_head? ha)
    refine ⟨this.1, not_le.1 fun hle => hp a this.1 ⟨hle, by simpa using this.2⟩⟩
  cases h1 : (m.inner.filter (fun e => decide (start e.1 ≤ p))).getLast? with
  | none =>
    cases h2 : (m.inner.filter (fun e => decide (p ≤ stop e.1))).head? with
    | none => left; exact ⟨_, rfl⟩
    | some b =>
      cases hd : down (start b.1) with
      | some d => left; exact ⟨⟨MIN, d⟩, by simp [hd, unwrap, bind, Except.bind, pure, Except.pure]⟩
      | none =>
        right
        exact ⟨by simp [hd, unwrap, bind, Except.bind, pure, Except.pure], Or.inr ⟨b, (hr b h2).1, (hr b h2).2, hd⟩⟩
  | some a =>
    cases hu : up (stop a.1) with
    | none =>
      right
      exact ⟨by simp [hu, unwrap, bind, Except.bind], Or.inl ⟨a, (hl a h1).1, (hl a h1).2, hu⟩⟩
    | some u =>
      cases h2 : (m.inner.filter (fun e => decide (p ≤ stop e.1))).head? with
      | none => left; exact ⟨⟨u, MAX⟩, by simp [hu, unwrap, bind, Except.bind, pure, Except.pure]⟩
      | some b =>
        cases hd : down (start b.1) with
        | some d => left; exact ⟨⟨u, d⟩, by simp [hu, hd, unwrap, bind, Except.bind, pure, Except.pure]⟩
        | none =>
          right
          exact ⟨by simp [hu, hd, unwrap, bind, Except.bind], Or.inr ⟨b, (hr b h2).1, (hr b h2).2, hd⟩⟩

/-- **C95**, lookups of covered points: right, for every totally ordered point type. -/
theorem C95_covered_point {m : NoditMap K V} (h : WF m.iter) {p : I} {e : K × V} (he : e ∈ m.iter) (hp : Mem p e.1) :
    m.getKeyValueAtPoint p = .ok (.ok e) ∧ m.getAtPoint p = .ok (some e.2) ∧ m.containsPoint p = .ok true := by
  have hk : m.getKeyValueAtPoint p = .ok (.ok e) := by
    unfold getKeyValueAtPoint
    rcases find_point (wf_iff_chain.1 h) p with ⟨d, -, -, hf, hu⟩ | ⟨hn, -⟩
    · rw [hu e he hp]; simp [hf, pure, Except.pure]
    · exact absurd hp (hn e he)
  exact ⟨hk, by simp [getAtPoint, hk, bind, Except.bind, pure, Except.pure],
    by simp [containsPoint, hk, bind, Except.bind, pure, Except.pure]⟩

/-- **C95**, lookups of points that are not covered: the answer is "none", or the call panics; it panics only if `up` is `None` for
the end of an entry below the point, or `down` for the start of an entry above it. -/
theorem C95_uncovered_point {m : NoditMap K V} (h : WF m.iter) {p : I} (hp : ∀ e ∈ m.iter, ¬ Mem p e.1) :
    ((∃ g, m.getKeyValueAtPoint p = .ok (.error g)) ∧ m.getAtPoint p = .ok none ∧ m.containsPoint p = .ok false) ∨
    ((m.getKeyValueAtPoint p = .error .unwrapNone ∧ m.getAtPoint p = .error .unwrapNone ∧ m.containsPoint p = .error .unwrapNone) ∧
      ((∃ e ∈ m.iter, ∃ x, Mem x e.1 ∧ x < p ∧ up x = none) ∨ (∃ e ∈ m.iter, ∃ x, Mem x e.1 ∧ p < x ∧ down x = none))) := by
  have hc := wf_iff_chain.1 h
  have hf : BTree.find (overlappingComp p) m.inner = none := by
    rcases find_point hc p with ⟨d, hd, hdp, -⟩ | ⟨-, hf⟩
    · exact absurd hdp (hp d hd)
    · exact hf
  rcases getGapAtRaw_any h hp with ⟨g, hg⟩ | ⟨hg, hx⟩
  · left
    have hk : m.getKeyValueAtPoint p = .ok (.error (ofInterval g)) := by
      simp [getKeyValueAtPoint, hf, hg, bind, Except.bind, pure, Except.pure]
    exact ⟨⟨_, hk⟩, by simp [getAtPoint, hk, bind, Except.bind, pure, Except.pure],
      by simp [containsPoint, hk, bind, Except.bind, pure, Except.pure]⟩
  · right
    have hk : m.getKeyValueAtPoint p = .error .unwrapNone := by
      simp [getKeyValueAtPoint, hf, hg, bind, Except.bind]
    refine ⟨⟨hk, by simp [getAtPoint, hk, bind, Except.bind], by simp [containsPoint, hk, bind, Except.bind]⟩, ?_⟩
    refine hx.imp ?_ ?_
    · rintro ⟨e, he, h1, h2⟩; exact ⟨e, he, stop e.1, ⟨hc.1 e he, le_refl _⟩, h1, h2⟩
    · rintro ⟨e, he, h1, h2⟩; exact ⟨e, he, start e.1, ⟨le_refl _, hc.1 e he⟩, h1, h2⟩

/-- **C95**: so if `up` is `None` only for the greatest point and `down` only for the least, `get_at_point` and `contains_point`
are right for all points, whatever points `up` and `down` give otherwise. -/
theorem C95_lookup (hup : ∀ x y : I, x < y → up x ≠ none) (hdown : ∀ x y : I, x < y → down y ≠ none) {m : NoditMap K V} (h : WF m.iter)
    (p : I) : ∃ r b, m.getAtPoint p = .ok r ∧ m.containsPoint p = .ok b ∧ (∀ v, r = some v ↔ ∃ e ∈ m.iter, Mem p e.1 ∧ e.2 = v) ∧
      (b = true ↔ ∃ e ∈ m.iter, Mem p e.1) := by
  by_cases hp : ∃ e ∈ m.iter, Mem p e.1
  · obtain ⟨e, he, hpe⟩ := hp
    obtain ⟨-, h1, h2⟩ := C95_covered_point h he hpe
    refine ⟨_, _, h1, h2, fun v => ⟨fun hv => ⟨e, he, hpe, by simpa using hv⟩, ?_⟩, by simp only [true_iff]; exact ⟨e, he, hpe⟩⟩
    rintro ⟨d, hd, hdp, rfl⟩
    have := (C95_covered_point h hd hdp).2.1
    rw [h1] at this
    simpa using this
  · have hp' : ∀ e ∈ m.iter, ¬ Mem p e.1 := fun e he hc => hp ⟨e, he, hc⟩
    rcases C95_uncovered_point h hp' with ⟨-, h1, h2⟩ | ⟨-, h1⟩
    · refine ⟨_, _, h1, h2, fun v => ⟨fun hv => (by cases hv), ?_⟩, by simp only [Bool.false_eq_true, false_iff]; exact hp⟩
      rintro ⟨e, he, hpe, -⟩; exact absurd hpe (hp' e he)
    · rcases h1 with ⟨e, -, x, -, h3, h4⟩ | ⟨e, -, x, -, h3, h4⟩
      · exact absurd h4 (hup _ _ h3)
      · exact absurd h4 (hdown _ _ h3)

/-- **C95** for `ZosditMap`: every history without `cut` is a run of the reference machine of C62, and `overlapping` and
`get_last_value_at_point` answer as C44 and C63 say. -/
theorem C95_zosdit_map (ops : List (ZOp I K V)) (hops : ∀ op ∈ ops, op.isCut = false) :
    ∃ s, ZSpecRun ⟨[], 0, false⟩ ops s ((ZosditMap.new : ZosditMap K V).run ops).2 ∧
      let m := ((ZosditMap.new : ZosditMap K V).run ops).1
      m.iter = s.entries ∧ m.length = s.entries.length + s.removed ∧
      (∀ q : Q, Valid q → ∃ out, m.overlapping q = .ok out ∧ out.Sublist m.iter ∧ ∀ e, e ∈ out ↔ e ∈ m.iter ∧ Overlap e.1 q) ∧
      ∀ p : I, (NotFound m.iter p ∧ m.getLastValueAtPoint p = none) ∨
        (∃ l1 k v l2, m.iter = l1 ++ (k, v) :: l2 ∧ Mem p k ∧ (∀ e ∈ l2, ¬ Mem p e.1) ∧ m.getLastValueAtPoint p = some v) := by
  have run : ∀ (ops : List (ZOp I K V)) {m : ZosditMap K V} {s : ZState K V}, (∀ op ∈ ops, op.isCut = false) → ZosditMap.Represents m s →
      ∃ s', ZSpecRun s ops s' (m.run ops).2 ∧ ZosditMap.Represents (m.run ops).1 s' := by
    intro ops
    induction ops with
    | nil => exact fun {m s} _ h => ⟨s, .nil s, h⟩
    | cons op ops ih =>
      intro m s hops h
      have hops' : ∀ op ∈ ops, op.isCut = false := fun o ho => hops o (List.mem_cons_of_mem _ ho)
      rcases ZosditMap.step_refines_no_cut h op (hops op List.mem_cons_self) with ⟨hb, h1⟩ | ⟨hb, m', o, s', h1, h2, h3⟩
      · obtain ⟨s', h2, h3⟩ := ih hops' h
        rw [ZosditMap.run, h1]
        exact ⟨s', .cons (Or.inl ⟨hb, rfl, rfl⟩) h2, h3⟩
      · obtain ⟨s'', h4, h5⟩ := ih hops' h2
        rw [ZosditMap.run, h1]
        exact ⟨s'', .cons (Or.inr ⟨hb, o, rfl, h3⟩) h4, h5⟩
  obtain ⟨s, h1, h2⟩ := run ops hops ZosditMap.represents_new
  refine ⟨s, h1, h2.entries, h2.len, fun q hq => ?_, fun p => ?_⟩
  · have hq' := valid_iff.1 hq
    refine ⟨_, ZosditMap.overlapping_ok h2.good.inv hq', List.filter_sublist, fun e => ?_⟩
    rw [List.mem_filter, decide_eq_true_eq]
    refine and_congr_right fun he => ?_
    rw [overlap_iff (h2.good.inv.flat.1 e he) hq']
  · rcases ZosditMap.lookup_exact h2.good.inv p with ⟨h3, h4, -⟩ | ⟨-, v, m', l1, k, l2, h4, -, h5, -, h6, h7, -⟩
    · exact Or.inl ⟨h3, h4⟩
    · exact Or.inr ⟨l1, k, v, l2, h5, h6, h7, h4⟩

/-! ## examples: points with a step of 10 -/
namespace Coarse
/-- a point type that breaks the contract in every way: `up` and `down` skip points, `down` is `None` too early, `MIN` and `MAX` are
not the least and greatest point -/
@[reducible] def points : PointType Nat :=
  { (inferInstance : LinearOrder Nat) with
    MIN := 3
    MAX := 5
    up := fun x => some (x + 10)
    down := fun x => if x < 10 then none else some (x - 10) }
attribute [local instance] points

example : ¬ LawfulPoint Nat := fun h => by have := h.min_le 0; exact absurd this (by decide)

/-- a history with such points: it meets the hypotheses of `C95_any_points` -/
def ops : List (Op Nat (Interval Nat) Nat) :=
  [.insertStrict ⟨10, 20⟩ 1, .insertMergeOverlapping ⟨15, 31⟩ 2, .insertStrict ⟨31, 40⟩ 3, .insertStrict ⟨50, 60⟩ 4, .overlaps ⟨45, 49⟩]

example : (∀ op ∈ ops, op.NoNeighbours) ∧ (new.run ops).1.iter = [(⟨10, 31⟩, 2), (⟨50, 60⟩, 4)] ∧
    (new.run ops).2.getLast? = some (.ok (.bool false)) := by
  refine ⟨by simp [ops, Op.NoNeighbours], by decide, rfl⟩

/-- **C95**: the calls that ask for neighbouring points can go wrong with such points: `contains_point` panics for a point below an entry
whose start has no `down`, and `cut` removes points outside the interval it is given. -/
theorem C95_neighbours_matter :
    (∃ m : NoditMap (Interval Nat) Nat, m = (new.run [.insertStrict ⟨5, 8⟩ 1]).1 ∧ m.containsPoint 2 = .error .unwrapNone) ∧
    (∃ m : NoditMap (Interval Nat) Nat, m = (new.run [.insertStrict ⟨10, 60⟩ 1]).1 ∧
      ∃ m' out, m.cut (⟨30, 31⟩ : Interval Nat) = .ok (m', out) ∧ m'.iter = [(⟨10, 20⟩, 1), (⟨41, 60⟩, 1)]) := by
  exact ⟨⟨_, rfl, rfl⟩, ⟨_, rfl, _, _, rfl, rfl⟩⟩
end Coarse
end Nodit
