import Verif.Props.FromIter
import Verif.Reservation
/-!
# C69, C70: user-supplied interval types

Most theorems assume `LawfulInterval`: `From<Interval>` keeps both end-points. C69 shows what holds for *every* type, C70
what goes wrong with the type the README gives as an example.
-/
set_option linter.unusedSectionVars false
namespace Nodit
open Spec PointType NoditMap

section
variable {I K V : Type} [PointType I] [IntervalType I K] [LawfulPoint I]

namespace Spec
/-- the calls that store only keys given by the caller, and do not compute intervals between entries -/
def Op.StoresGivenKeys : Op I K V → Prop
  | .insertStrict .. | .removeOverlapping _ | .overlapping _ | .overlaps _ | .overlappingMut .. | .getAtPoint _
  | .getKeyValueAtPoint _ | .containsPoint _ | .getAtPointMut .. | .iterMut _ | .iter | .len | .isEmpty | .firstKeyValue
  | .lastKeyValue => True
  | _ => False
end Spec

/-- one such call refines the reference machine, for any interval type -/
theorem step_refines_any_type [BEq V] {m : NoditMap K V} (h : WF m.iter) (op : Op I K V) (hop : Op.StoresGivenKeys op) :
    (op.Bad ∧ m.step op = .error .invalidInterval) ∨
    (¬ op.Bad ∧ ∃ m' o, m.step op = .ok (m', o) ∧ WF m'.iter ∧ SpecOp m.entrySet op m'.entrySet o) := by
  by_cases hb : op.Bad
  · left
    refine ⟨hb, ?_⟩
    cases op with
    | insertStrict k v => simp only [step, panic_insertStrict hb]; rfl
    | removeOverlapping q => simp only [step, panic_removeOverlapping hb]; rfl
    | overlapping q => simp only [step, panic_overlapping hb]; rfl
    | overlaps q => simp only [step, panic_overlaps hb]; rfl
    | overlappingMut q f => simp only [step, panic_overlappingMut hb]; rfl
    | _ => first | exact hop.elim | exact False.elim hb
  · right
    refine ⟨hb, ?_⟩
    cases op with
    | insertStrict k v =>
      obtain ⟨m', r, h1, h2, h3, h4⟩ := spec_insertStrict h (not_not.1 hb) v
      refine ⟨m', _, by simp only [step, h1]; rfl, h2, fun he => ?_, fun hn => ?_⟩
      · obtain ⟨rfl, rfl⟩ := h3 he; exact ⟨rfl, rfl⟩
      · obtain ⟨e1, rfl⟩ := h4 hn; exact ⟨e1, rfl⟩
    | removeOverlapping q =>
      obtain ⟨m', r, h1, h2, h3, h4⟩ := spec_removeOverlapping h (not_not.1 hb)
      exact ⟨m', _, by simp only [step, h1]; rfl, h2, r, h4, h3, rfl⟩
    | overlapping q =>
      obtain ⟨r, h1, h2⟩ := spec_overlapping h (not_not.1 hb)
      exact ⟨m, _, by simp only [step, h1]; rfl, h, r, h2, rfl, rfl⟩
    | overlaps q =>
      obtain ⟨r, h1, h2⟩ := spec_overlaps h (not_not.1 hb)
      exact ⟨m, _, by simp only [step, h1]; rfl, h, r, h2, rfl, rfl⟩
    | overlappingMut q f =>
      obtain ⟨m', h1, h2, -, h3⟩ := spec_overlappingMut h (not_not.1 hb) f
      exact ⟨m', _, by simp only [step, h1]; rfl, h2, h3, rfl⟩
    | getAtPoint p =>
      obtain ⟨r, h1, h2⟩ := spec_getAtPoint h p
      exact ⟨m, _, by simp only [step, h1]; rfl, h, r, h2, rfl, rfl⟩
    | getKeyValueAtPoint p =>
      obtain ⟨r, h1, h2, h3⟩ := spec_getKeyValueAtPoint h p
      exact ⟨m, _, by simp only [step, h1]; rfl, h, r, h2, h3, rfl, rfl⟩
    | containsPoint p =>
      obtain ⟨r, h1, h2⟩ := spec_containsPoint h p
      exact ⟨m, _, by simp only [step, h1]; rfl, h, r, h2, rfl, rfl⟩
    | getAtPointMut p f =>
      obtain ⟨h1, -, h2, h3⟩ := spec_getAtPointMut h p f
      exact ⟨_, _, rfl, h1, _, h2, h3, rfl⟩
    | iterMut f =>
      refine ⟨_, _, rfl, wf_iff_chain.2 ((wf_iff_chain.1 h).map_value (fun e => f e.1 e.2)), ?_, rfl⟩
      ext x
      change x ∈ List.map _ _ ↔ _
      rw [List.mem_map]
      exact exists_congr fun d => and_congr_right fun _ => eq_comm
    | iter => exact ⟨m, _, rfl, h, _, ⟨h, fun _ => Iff.rfl⟩, rfl, rfl⟩
    | len => exact ⟨m, _, rfl, h, _, ⟨h, fun _ => Iff.rfl⟩, rfl, rfl⟩
    | isEmpty =>
      refine ⟨m, _, rfl, h, _, ?_, rfl, rfl⟩
      rw [NoditMap.isEmpty, List.isEmpty_iff, List.eq_nil_iff_forall_not_mem]
      rfl
    | firstKeyValue => exact ⟨m, _, rfl, h, _, spec_first h, rfl, rfl⟩
    | lastKeyValue => exact ⟨m, _, rfl, h, _, spec_last h, rfl, rfl⟩
    | _ => exact hop.elim

/-- **C69**: with any interval type, lawful or not, every history of calls that store only keys given by the caller refines
the reference machine over sets of entries, and keeps the entries valid, ascending and disjoint. -/
theorem C69_any_interval_type [BEq V] (ops : List (Op I K V)) (hops : ∀ op ∈ ops, Op.StoresGivenKeys op) :
    WF ((new : NoditMap K V).run ops).1.iter ∧
      SpecRun ∅ ops ((new : NoditMap K V).run ops).1.entrySet ((new : NoditMap K V).run ops).2 := by
  have : ∀ {m : NoditMap K V}, WF m.iter → WF (m.run ops).1.iter ∧ SpecRun m.entrySet ops (m.run ops).1.entrySet (m.run ops).2 := by
    induction ops with
    | nil => exact fun h => ⟨h, SpecRun.nil _⟩
    | cons op ops ih =>
      intro m h
      have ih := fun {m : NoditMap K V} => ih (fun o ho => hops o (List.mem_cons_of_mem _ ho)) (m := m)
      rcases step_refines_any_type h op (hops op (List.mem_cons_self ..)) with ⟨hb, he⟩ | ⟨hb, m', o, ho, hw, hs⟩
      · obtain ⟨h1, h2⟩ := ih h
        simp only [run, he]
        exact ⟨h1, SpecRun.cons (Or.inl ⟨hb, rfl, rfl⟩) h2⟩
      · obtain ⟨h1, h2⟩ := ih hw
        simp only [run, ho]
        exact ⟨h1, SpecRun.cons (Or.inr ⟨hb, o, rfl, hs⟩) h2⟩
  have h0 := this wf_new
  have he : (new : NoditMap K V).entrySet = ∅ := by ext; simp [entrySet, new, iter]
  rwa [he] at h0
end

/-! ## C70: the README's `Reservation` -/

namespace Demo
/-- an `i8` literal -/
def r8 (n : Int) : ResI8 := BInt.wrapInt _ _ (by decide) n
/-- the README's map, `/repo/README.md:100-104` -/
def readme : NoditMap Reservation Nat := (new.run [.insertStrict (.finite (r8 10) (r8 20)) 1, .insertStrict (.infinite (r8 21)) 2]).1

/-- what the README's example asserts and prints, `/repo/README.md:106-120`, is right -/
example : NoditMap.fromSliceStrict [(Reservation.finite (r8 10) (r8 20), 1), (Reservation.infinite (r8 21), 2)] = .ok (.ok readme) ∧
    readme.overlapping (⟨r8 16, r8 16⟩ : Interval ResI8) = .ok [(Reservation.finite (r8 10) (r8 20), 1)] ∧
    readme.overlaps (Reservation.infinite (r8 0)) = .ok true := by decide

theorem readme_wf : WF readme.iter := (C69_any_interval_type _ (by simp [Op.StoresGivenKeys])).1
end Demo

/-- the points of a `Reservation` made from an interval: one more than there should be, unless it ends at the maximum -/
theorem C70_from_adds_a_point (i : Interval ResI8) (hi : Valid i) (p : ResI8) :
    Mem p (ofInterval i : Reservation) ↔ Mem p i ∨ up i.stop = some p := by
  have hv := valid_iff.1 hi
  simp only [start, stop] at hv
  show (Reservation.fromInterval i).first ≤ p ∧ p ≤ (Reservation.fromInterval i).last ↔ (i.start ≤ p ∧ p ≤ i.stop) ∨ up i.stop = some p
  unfold Reservation.fromInterval
  split_ifs with h
  · have hn : up i.stop = none := by rw [h]; rfl
    rw [hn, h]
    simp [Reservation.first, Reservation.last]
  · obtain ⟨u, hu, h1, h2, h3⟩ := up_exists (x := i.stop) (y := MAX) (lt_of_le_of_ne (LawfulPoint.le_max _) h)
    rw [hu]
    simp only [Reservation.first, Reservation.last, Option.getD_some, Option.some.injEq]
    have := (h3 p)
    constructor
    · rintro ⟨h4, h5⟩
      rcases lt_or_ge i.stop p with h6 | h6
      · right; have := this.1 h6; order
      · exact Or.inl ⟨h4, h6⟩
    · rintro (⟨h4, h5⟩ | rfl)
      · exact ⟨h4, by order⟩
      · exact ⟨by order, le_refl _⟩

/-- **C70**: it is not lawful -/
theorem C70_not_lawful : ¬ LawfulInterval ResI8 Reservation := fun h => by
  have := h.stop_of ⟨Demo.r8 0, Demo.r8 0⟩
  revert this; decide

/-- **C70**: whenever `cut(q)` has to shorten a reservation that starts before `q`, the first point of `q` stays reserved:
the map still has an entry containing it. -/
theorem C70_cut_keeps_first_point {V Q : Type} [IntervalType ResI8 Q] {m : NoditMap Reservation V} (h : WF m.iter) {q : Q}
    (hq : Valid q) {e : Reservation × V} (he : e ∈ m.iter) (hlt : ∃ p, Mem p e.1 ∧ ∀ x, Mem x q → p < x) (ho : Overlap e.1 q) :
    ∃ m' out p, m.cut q = .ok (m', out) ∧ Mem p q ∧ (∀ x, Mem x q → p ≤ x) ∧ ∃ e' ∈ m'.iter, Mem p e'.1 ∧ e'.2 = e.2 := by
  have hq' := valid_iff.1 hq
  have hc := wf_iff_chain.1 h
  have hve := hc.1 e he
  refine ⟨_, _, start q, cut_ok hc hq', ⟨le_refl _, hq'⟩, fun x hx => hx.1, ?_⟩
  obtain ⟨p, hp, hpl⟩ := hlt
  have hpq : p < start q := hpl _ ⟨le_refl _, hq'⟩
  have h1 : start e.1 < start q := lt_of_le_of_lt hp.1 hpq
  obtain ⟨d, hd, hd1, hd2, hd3⟩ := down_exists h1
  refine ⟨(ofInterval ⟨start e.1, d⟩, e.2), ?_, ?_, rfl⟩
  · show _ ∈ m.inner.flatMap (cutOut q)
    rw [List.mem_flatMap]
    refine ⟨e, he, ?_⟩
    rw [cutOut, if_pos ((ovl_iff hq' hve).2 ho), if_pos h1, hd]
    simp
  · rw [C70_from_adds_a_point _ (valid_iff.2 hd2)]
    right
    exact up_eq_some_iff_down.2 hd

/-- the README's map satisfies the hypotheses of the theorem; `insert_overwrite` even leaves overlapping reservations -/
example : (∃ m' out, Demo.readme.cut (⟨Demo.r8 15, Demo.r8 17⟩ : Interval ResI8) = .ok (m', out) ∧
      m'.containsPoint (Demo.r8 15) = .ok true) ∧
    ∃ m' out, Demo.readme.insertOverwrite (.finite (Demo.r8 15) (Demo.r8 17)) 3 = .ok (m', out) ∧
      m'.iter = [(.finite (Demo.r8 10) (Demo.r8 15), 1), (.finite (Demo.r8 15) (Demo.r8 17), 3), (.finite (Demo.r8 18) (Demo.r8 21), 1),
        (.infinite (Demo.r8 21), 2)] := ⟨⟨_, _, rfl, by decide⟩, _, _, rfl, by decide⟩

theorem tupleWindows_of_append {α : Type} (l1 : List α) (a b : α) (l2 : List α) : (a, b) ∈ tupleWindows (l1 ++ a :: b :: l2) := by
  induction l1 with
  | nil => simp [tupleWindows]
  | cons c l ih =>
    cases l with
    | nil => simp only [List.nil_append, List.cons_append] at ih ⊢; rw [tupleWindows]; exact List.mem_cons_of_mem _ ih
    | cons d l => simp only [List.cons_append] at ih ⊢; rw [tupleWindows]; exact List.mem_cons_of_mem _ ih

/-- **C70**: two touching reservations, both meeting `q`, make `contains_interval(q)` false, whatever is covered, and
`gaps_untrimmed(q)` reports a gap where there is none. -/
theorem C70_contains_interval_false {V Q : Type} [IntervalType ResI8 Q] {m : NoditMap Reservation V} (h : WF m.iter) {q : Q}
    (hq : Valid q) {l1 l2 : List (Reservation × V)} {e f : Reservation × V} (hm : m.iter = l1 ++ e :: f :: l2)
    (ht : Touch e.1 f.1) (he : Overlap e.1 q) (hf : Overlap f.1 q) :
    m.containsInterval q = .ok false ∧
      ∃ gs g, m.gapsUntrimmed q = .ok gs ∧ g ∈ gs ∧ ∀ p, Mem p g → ∃ d ∈ m.iter, Mem p d.1 := by
  have hq' := valid_iff.1 hq
  have hc := wf_iff_chain.1 h
  have hve := hc.1 e (by show e ∈ m.iter; rw [hm]; simp)
  have hvf := hc.1 f (by show f ∈ m.iter; rw [hm]; simp)
  have hlt : stop e.1 < start f.1 := by
    have := hc.2
    change m.iter.Pairwise _ at this
    rw [hm, List.pairwise_append, List.pairwise_cons] at this
    exact this.2.1.1 f (by simp)
  have hup : up (stop e.1) = some (start f.1) := by
    obtain ⟨u, hu, hu1, hu2, hu3⟩ := up_exists hlt
    rcases lt_or_ge u (start f.1) with hc' | hc'
    · exact absurd ⟨fun x hx => lt_of_le_of_lt hx.2 hu1, fun y hy => lt_of_lt_of_le hc' hy.1⟩ (ht.2 u).1
    · rw [hu, le_antisymm hu2 hc']
  have hdown : down (start f.1) = some (stop e.1) := up_eq_some_iff_down.1 hup
  have hb : (between (e, f) : Interval ResI8) = ⟨start f.1, stop e.1⟩ := by simp [between, hup, hdown]
  have hfil : m.inner.filter (ovl q) = l1.filter (ovl q) ++ e :: f :: l2.filter (ovl q) := by
    change m.iter.filter (ovl q) = _
    rw [hm, List.filter_append, List.filter_cons_of_pos ((ovl_iff hq' hve).2 he), List.filter_cons_of_pos ((ovl_iff hq' hvf).2 hf)]
  set g : Reservation := ofInterval (⟨start f.1, stop e.1⟩ : Interval ResI8) with hg
  have hgs : start g = start f.1 ∧ stop g = start f.1 := by
    have hne : stop e.1 ≠ MAX := fun hc' => by
      have := LawfulPoint.le_max (start f.1); rw [hc'] at hlt; order
    constructor
    · show (Reservation.fromInterval _).first = _
      unfold Reservation.fromInterval; rw [if_neg hne]; rfl
    · show (Reservation.fromInterval _).last = _
      unfold Reservation.fromInterval; rw [if_neg hne]; simp [Reservation.last, hup]
  obtain ⟨inner, hin, hmem⟩ : ∃ inner, innerGaps (m.inner.filter (ovl q)) = .ok inner ∧ g ∈ inner := by
    refine ⟨_, innerGaps_ok (hc.filter _), List.mem_filter.2 ⟨List.mem_map.2 ⟨(e, f), ?_, by rw [hb]⟩, ?_⟩⟩
    · rw [hfil]; exact tupleWindows_of_append _ _ _ _
    · simp [InclusiveInterval.isValid, hgs.1, hgs.2]
  have hgp : ∀ p, Mem p g → ∃ d ∈ m.iter, Mem p d.1 := fun p hp => by
    refine ⟨f, by rw [hm]; simp, ?_⟩
    have : p = start f.1 := le_antisymm (hgs.2 ▸ hp.2) (hgs.1 ▸ hp.1)
    rw [this]; exact ⟨le_refl _, hvf⟩
  obtain ⟨gs, hgs', hgm⟩ : ∃ gs, m.gapsUntrimmed q = .ok gs ∧ g ∈ gs := by
    unfold gapsUntrimmed
    simp only [invalidIntervalPanic_ok hq', bind, Except.bind, pure, Except.pure, overlapping_ok hc hq', hin]
    rcases gapAt_spec hc (start q) with ⟨-, hs⟩ | ⟨-, s, hs, -⟩ <;>
    rcases gapAt_spec hc (stop q) with ⟨-, ht'⟩ | ⟨-, t, ht', -⟩ <;>
    simp only [hs, ht'] <;> exact ⟨_, rfl, by simp [hmem]⟩
  refine ⟨?_, gs, g, hgs', hgm, hgp⟩
  unfold containsInterval
  simp only [invalidIntervalPanic_ok hq', bind, Except.bind, pure, Except.pure, hgs']
  cases gs with
  | nil => cases hgm
  | cons a l => rfl

/-- the README's map covers `15..=25`, but `contains_interval` denies it -/
example : Demo.readme.containsInterval (⟨Demo.r8 15, Demo.r8 25⟩ : Interval ResI8) = .ok false ∧
    Demo.readme.containsPoint (Demo.r8 20) = .ok true ∧ Demo.readme.containsPoint (Demo.r8 21) = .ok true := by decide

/-- **C70**: with an inclusive end left alone the type is lawful, so all other theorems apply to it -/
theorem C70_fixed_lawful : LawfulInterval ResI8 FixedReservation where
  start_of i := by
    show Reservation.first (if i.stop = MAX then _ else _) = i.start
    split_ifs <;> rfl
  stop_of i := by
    show Reservation.last (if i.stop = MAX then _ else _) = i.stop
    split_ifs with h
    · exact h.symm
    · rfl

end Nodit
