import Verif.GqSpec
import Verif.Props.GqditProps
import Verif.Props.SerdeProps
/-!
# C71 - C73: `Gqdit`s that do not cover every point

`GqProg`, its reference semantics `contents` and `evalProg` are in `Verif/GqSpec.lean`.
-/
set_option linter.unusedSectionVars false
namespace Nodit
open Spec PointType Gqdit

variable {I K Q D : Type} [PointType I] [IntervalType I K] [IntervalType I Q]
  [LawfulPoint I] [LawfulInterval I K] [DecidableEq D]

namespace Gqdit
/-- the weak invariant: entries valid and disjoint, and `f` tells what is at each point -/
structure RepW (g : Gqdit K D) (f : I → Option (Finset D)) : Prop where
  wf : WF g.inner.iter
  at_iff : ∀ p w, At g.inner.iter p w ↔ f p = some w

theorem insertMergeEq_weak {V : Type} [BEq V] [LawfulBEq V] {m : NoditMap K V} (h : WF m.iter) {k : K} (hk : Valid k) (v : V)
    (hno : ∀ e ∈ m.iter, ¬ Overlap e.1 k) :
    ∃ m' r, m.insertMergeTouchingIfValuesEqual k v = .ok (m', .ok r) ∧ WF m'.iter ∧
      (∀ p w, At m'.iter p w ↔ At m.iter p w ∨ (Mem p k ∧ v = w)) := by
  obtain ⟨m', r, h1, h2, -, h4⟩ := C11_insert_merge_touching_if_values_equal h k hk v
  obtain ⟨r, rfl, h5, h6, h7⟩ := h4 hno
  refine ⟨m', r, h1, h2, fun p w => ?_⟩
  constructor
  · rintro ⟨e, he, hp, rfl⟩
    rcases (h7 e).1 he with ⟨he, -⟩ | rfl
    · exact Or.inl ⟨e, he, hp, rfl⟩
    · rcases (h5 p).1 hp with hp | ⟨c, hc, -, hcv, hp⟩
      · exact Or.inr ⟨hp, rfl⟩
      · exact Or.inl ⟨c, hc, hp, eq_of_beq hcv⟩
  · rintro (⟨e, he, hp, rfl⟩ | ⟨hp, rfl⟩)
    · by_cases hc : Touch e.1 k ∧ (e.2 == v) = true
      · exact ⟨(r, v), (h7 _).2 (Or.inr rfl), (h5 p).2 (Or.inr ⟨e, he, hc.1, hc.2, hp⟩), (eq_of_beq hc.2).symm⟩
      · exact ⟨e, (h7 _).2 (Or.inl ⟨he, hc⟩), hp, rfl⟩
    · exact ⟨(r, v), (h7 _).2 (Or.inr rfl), (h5 p).2 (Or.inl hp), rfl⟩

theorem putBack_weak (f : Finset D → Finset D) {m : NoditMap K (Finset D)} {l : List (K × Finset D)} (h : WF m.iter)
    (hl : WF l) (hno : ∀ e ∈ l, ∀ d ∈ m.iter, ¬ Overlap d.1 e.1) :
    ∃ m', putBack f m l = .ok m' ∧ WF m'.iter ∧
      ∀ p w, At m'.iter p w ↔ At m.iter p w ∨ ∃ v, At l p v ∧ f v = w := by
  induction l generalizing m with
  | nil => exact ⟨m, rfl, h, fun p w => by simp [At]⟩
  | cons a l ih =>
    obtain ⟨k, ids⟩ := a
    obtain ⟨m1, r, h1, h2, h5⟩ := insertMergeEq_weak h (hl.1 (k, ids) (by simp)) (f ids) (hno (k, ids) (by simp))
    have hl' : WF l := ⟨fun e he => hl.1 e (by simp [he]), (List.pairwise_cons.1 hl.2).2⟩
    obtain ⟨m', e1, e2, e5⟩ := ih h2 hl' (by
      rintro e he d hd ⟨p, hpd, hpe⟩
      rcases (h5 p d.2).1 ⟨d, hd, hpd, rfl⟩ with ⟨d', hd', hp', -⟩ | ⟨hpk, -⟩
      · exact hno e (by simp [he]) d' hd' ⟨p, hp', hpe⟩
      · exact lt_irrefl _ ((List.pairwise_cons.1 hl.2).1 e he p p hpk hpe))
    refine ⟨m', by rw [putBack, h1]; exact e1, e2, fun p w => ?_⟩
    rw [e5, h5]
    constructor
    · rintro ((hh | ⟨hp, rfl⟩) | ⟨v, ⟨e, he, hp, rfl⟩, rfl⟩)
      · exact Or.inl hh
      · exact Or.inr ⟨ids, ⟨(k, ids), by simp, hp, rfl⟩, rfl⟩
      · exact Or.inr ⟨_, ⟨e, by simp [he], hp, rfl⟩, rfl⟩
    · rintro (hh | ⟨v, ⟨e, he, hp, rfl⟩, rfl⟩)
      · exact Or.inl (Or.inl hh)
      · rcases List.mem_cons.1 he with rfl | he
        · exact Or.inl (Or.inr ⟨hp, rfl⟩)
        · exact Or.inr ⟨_, ⟨e, he, hp, rfl⟩, rfl⟩

open Classical in
theorem RepW.cutPut {g : Gqdit K D} {f : I → Option (Finset D)} (h : RepW g f) {q : Q} (hq : Valid q) (φ : Finset D → Finset D) :
    ∃ mc out m', g.inner.cut q = .ok (mc, out) ∧ putBack φ mc out = .ok m' ∧
      RepW ⟨m'⟩ (fun p => if Mem p q then (f p).map φ else f p) := by
  obtain ⟨mc, out, h1, -⟩ := C08_cut_exact h.wf q hq
  obtain ⟨c1, c2, -, -, -, c6, c7, c8⟩ := at_cut h.wf hq h1
  obtain ⟨m', e1, e2, e5⟩ := putBack_weak φ c1 c2 c6
  refine ⟨mc, out, m', h1, e1, e2, fun p w => ?_⟩
  rw [e5]
  simp only [c7, c8, h.at_iff]
  by_cases hp : Mem p q <;> simp [hp]

open Classical in
theorem RepW.insert {g : Gqdit K D} {f : I → Option (Finset D)} (h : RepW g f) {k : K} (hk : Valid k) (ids : Finset D) :
    ∃ g', g.insert ids k = .ok g' ∧ RepW g' (fun p => if Mem p k then (f p).map (fun s => s ∪ ids) else f p) := by
  unfold Gqdit.insert
  rw [invalidIntervalPanic_ok (valid_iff.1 hk)]
  simp only [bind, Except.bind]
  split_ifs with he
  · subst he
    refine ⟨g, rfl, ?_⟩
    have : (fun p => if Mem p k then (f p).map (fun s => s ∪ ∅) else f p) = f := by funext p; simp
    rw [this]; exact h
  · obtain ⟨mc, out, m', h1, h2, h3⟩ := h.cutPut hk (fun v => v ∪ ids)
    exact ⟨⟨m'⟩, by rw [h1]; simp only [h2]; rfl, h3⟩

open Classical in
theorem RepW.cutWith {g : Gqdit K D} {f : I → Option (Finset D)} (h : RepW g f) {q : Q} (hq : Valid q) (ids : Finset D) :
    ∃ g', g.cutWithIdentifiers ids q = .ok g' ∧ RepW g' (fun p => if Mem p q then (f p).map (fun s => s \ ids) else f p) := by
  have hsd : ∀ v : Finset D, v.filter (fun i => i ∉ ids) = v \ ids := fun v => by ext x; simp
  unfold Gqdit.cutWithIdentifiers
  rw [invalidIntervalPanic_ok (valid_iff.1 hq)]
  simp only [bind, Except.bind]
  split_ifs with he
  · subst he
    refine ⟨g, rfl, ?_⟩
    have : (fun p => if Mem p q then (f p).map (fun s => s \ ∅) else f p) = f := by funext p; simp
    rw [this]; exact h
  · obtain ⟨mc, out, m', h1, h2, h3⟩ := h.cutPut hq (fun v => v.filter (fun i => i ∉ ids))
    refine ⟨⟨m'⟩, by rw [h1]; simp only [h2]; rfl, ?_⟩
    simpa only [hsd] using h3

open Classical in
theorem RepW.cutAll {g : Gqdit K D} {f : I → Option (Finset D)} (h : RepW g f) {q : Q} (hq : Valid q) :
    ∃ g', g.cutAllIdentifiers q = .ok g' ∧ RepW g' (fun p => if Mem p q then (f p).map (fun _ => ∅) else f p) := by
  unfold Gqdit.cutAllIdentifiers
  rw [invalidIntervalPanic_ok (valid_iff.1 hq)]
  obtain ⟨mc, out, m', h1, h2, h3⟩ := h.cutPut hq (fun _ => ∅)
  exact ⟨⟨m'⟩, by simp only [bind, Except.bind, h1, h2]; rfl, h3⟩

theorem RepW.insertAll {g : Gqdit K D} {f : I → Option (Finset D)} (h : RepW g f) {l : List (K × Finset D)}
    (hl : ∀ e ∈ l, Valid e.1) : ∃ g' f', g.insertAll l = .ok g' ∧ RepW g' f' ∧ (∀ p, f p = none → f' p = none) ∧
      ∀ p s, f p = some s → ∃ s', f' p = some s' ∧ ∀ d, d ∈ s' ↔ d ∈ s ∨ ∃ e ∈ l, Mem p e.1 ∧ d ∈ e.2 := by
  classical
  induction l generalizing g f with
  | nil => exact ⟨g, f, rfl, h, fun _ h => h, fun p s hs => ⟨s, hs, by simp⟩⟩
  | cons a l ih =>
    obtain ⟨k, ids⟩ := a
    obtain ⟨g1, e1, e2⟩ := h.insert (hl (k, ids) (by simp)) ids
    obtain ⟨g', f', e3, e4, e5, e6⟩ := ih e2 (fun e he => hl e (by simp [he]))
    refine ⟨g', f', by rw [Gqdit.insertAll, e1]; exact e3, e4, fun p hp => e5 p (by simp [hp]), fun p s hs => ?_⟩
    by_cases hp : Mem p k
    · obtain ⟨s', h1, h2⟩ := e6 p (s ∪ ids) (by simp [hp, hs])
      exact ⟨s', h1, fun d => by rw [h2]; simp [hp, or_assoc]⟩
    · obtain ⟨s', h1, h2⟩ := e6 p s (by simp [hp, hs])
      exact ⟨s', h1, fun d => by rw [h2]; simp [hp]⟩

theorem RepW.append {g h : Gqdit K D} {f f' : I → Option (Finset D)} (hg : RepW g f) (hh : RepW h f') :
    ∃ g', g.append h = .ok (g', ⟨⟨[]⟩⟩) ∧ RepW g' (fun p => (f p).map (fun s => s ∪ (f' p).getD ∅)) := by
  have hfull : (uu : Res (Interval I)) = .ok ⟨MIN, MAX⟩ := by
    unfold uu mkChecked; rw [invalidIntervalPanic_ok (min_le _)]; rfl
  have hm : ∀ p : I, Mem p (⟨MIN, MAX⟩ : Interval I) := fun p => ⟨min_le p, le_max p⟩
  obtain ⟨m', out, h1, h2, h3, h4, h5⟩ := C07_remove_overlapping hh.wf (⟨MIN, MAX⟩ : Interval I) ⟨MIN, hm _⟩
  have hov : ∀ e ∈ h.inner.iter, Overlap e.1 (⟨MIN, MAX⟩ : Interval I) := fun e he => by
    obtain ⟨p, hp⟩ := hh.wf.1 e he; exact ⟨p, hp, hm p⟩
  have hm' : m' = ⟨[]⟩ := by
    have : m'.iter = [] := List.eq_nil_iff_forall_not_mem.2 fun e he => ((h5 e).1 he).2 (hov e ((h5 e).1 he).1)
    cases m'; simp only [NoditMap.iter] at this; rw [this]
  obtain ⟨g', f'', e1, e2, e3, e4⟩ := hg.insertAll (l := out) (fun e he => hh.wf.1 e ((h4 e).1 he).1)
  refine ⟨g', ?_, ?_⟩
  · unfold Gqdit.append
    rw [hfull]; simp only [bind, Except.bind, h1, e1, hm']; rfl
  · have : f'' = fun p => (f p).map (fun s => s ∪ (f' p).getD ∅) := by
      funext p
      cases hf : f p with
      | none => simp [e3 p hf]
      | some s =>
        obtain ⟨s', h6, h7⟩ := e4 p s hf
        rw [h6]; simp only [Option.map_some, Option.some.injEq]
        ext d
        rw [h7, Finset.mem_union]
        refine or_congr Iff.rfl ⟨?_, fun hd => ?_⟩
        · rintro ⟨e, he, hp, hd⟩
          rw [(hh.at_iff p e.2).1 ⟨e, ((h4 e).1 he).1, hp, rfl⟩]; exact hd
        · cases hf' : f' p with
          | none => rw [hf'] at hd; simp at hd
          | some t =>
            obtain ⟨e, he, hp, hv⟩ := (hh.at_iff p t).2 hf'
            rw [hf'] at hd
            exact ⟨e, (h4 e).2 ⟨he, hov e he⟩, hp, by rw [hv]; exact hd⟩
    rw [← this]; exact e2

theorem RepW.identifiers {g : Gqdit K D} {f : I → Option (Finset D)} (h : RepW g f) (p : I) :
    g.identifiersAtPoint p = .ok ((f p).getD ∅) := by
  unfold identifiersAtPoint
  cases hf : f p with
  | some s =>
    obtain ⟨e, he, hp, hv⟩ := (h.at_iff p s).2 hf
    rw [getAtPoint_eq h.wf he hp, hv]; rfl
  | none =>
    rw [getAtPoint_none h.wf (fun e he hp => by
      have := (h.at_iff p e.2).1 ⟨e, he, hp, rfl⟩; rw [hf] at this; cases this)]
    rfl

theorem repW_nil : RepW (⟨⟨[]⟩⟩ : Gqdit K D) (fun _ : I => none) :=
  ⟨wf_new, fun p w => by simp [At, NoditMap.iter]⟩
end Gqdit

open Classical in
/-- every program with fine arguments represents its reference semantics -/
theorem evalProg_rep {h : GqProg I K D} (hf : h.Fine) : ∃ g : Gqdit K D, evalProg h = .ok g ∧ RepW g h.contents := by
  induction h with
  | new =>
    obtain ⟨g, h1, h2⟩ := new_rep (I := I) (K := K) (D := D)
    refine ⟨g, h1, h2.wf, fun p w => ?_⟩
    rw [h2.at_iff]; simp [GqProg.contents]
  | deserialized l =>
    obtain ⟨m, h1, h2, h3⟩ := C47_map_accepts (E := Empty) hf.1 hf.2
    refine ⟨⟨m⟩, ?_, h2, fun p w => ?_⟩
    · rw [evalProg, gq_deserialize, h1]; rfl
    · simp only [GqProg.contents, Option.map_eq_some_iff]
      constructor
      · rintro ⟨e, he, hp, rfl⟩
        have he' := (h3 e).1 he
        cases hfi : l.find? (fun e => decide (Mem p e.1)) with
        | none => rw [List.find?_eq_none] at hfi; exact absurd hp (by simpa using hfi e he')
        | some d =>
          have hd := List.mem_of_find?_eq_some hfi
          have hdp : Mem p d.1 := by simpa using List.find?_some hfi
          have := (wf_iff_chain.1 h2).eq_of_common ((h3 d).2 hd) he (le_trans hdp.1 hp.2) (le_trans hp.1 hdp.2)
          exact ⟨d, rfl, by rw [this]⟩
      · rintro ⟨d, hfi, rfl⟩
        exact ⟨d, (h3 d).2 (List.mem_of_find?_eq_some hfi), by simpa using List.find?_some hfi, rfl⟩
  | insert h ids k ih =>
    obtain ⟨g, h1, h2⟩ := ih hf.1
    obtain ⟨g', h3, h4⟩ := h2.insert hf.2 ids
    refine ⟨g', by rw [evalProg, h1]; exact h3, ?_⟩
    have : (fun p => if Mem p k then (h.contents p).map (fun s => s ∪ ids) else h.contents p) = (GqProg.insert h ids k).contents := by
      funext p; simp only [GqProg.contents]
    rw [← this]; exact h4
  | cutWithIdentifiers h ids q ih =>
    obtain ⟨g, h1, h2⟩ := ih hf.1
    obtain ⟨g', h3, h4⟩ := h2.cutWith hf.2 ids
    refine ⟨g', by rw [evalProg, h1]; exact h3, ?_⟩
    have : (fun p => if Mem p q then (h.contents p).map (fun s => s \ ids) else h.contents p) = (GqProg.cutWithIdentifiers h ids q).contents := by
      funext p; simp only [GqProg.contents]
    rw [← this]; exact h4
  | cutAllIdentifiers h q ih =>
    obtain ⟨g, h1, h2⟩ := ih hf.1
    obtain ⟨g', h3, h4⟩ := h2.cutAll hf.2
    refine ⟨g', by rw [evalProg, h1]; exact h3, ?_⟩
    have : (fun p => if Mem p q then (h.contents p).map (fun _ => ∅) else h.contents p) = (GqProg.cutAllIdentifiers h q).contents := by
      funext p; simp only [GqProg.contents]
    rw [← this]; exact h4
  | append h o ih1 ih2 =>
    obtain ⟨g, h1, h2⟩ := ih1 hf.1
    obtain ⟨g', h3, h4⟩ := ih2 hf.2
    obtain ⟨g2, h5, h6⟩ := h2.append h4
    refine ⟨g2, by rw [evalProg, h1, h3]; simp only [bind, Except.bind, h5]; rfl, ?_⟩
    have : (fun p => (h.contents p).map (fun s => s ∪ (o.contents p).getD ∅)) = (GqProg.append h o).contents := by
      funext p; simp only [GqProg.contents]
    rw [← this]; exact h6
  | drained h o ih1 ih2 =>
    obtain ⟨g, h1, h2⟩ := ih1 hf.1
    obtain ⟨g', h3, h4⟩ := ih2 hf.2
    obtain ⟨g2, h5, h6⟩ := h2.append h4
    refine ⟨⟨⟨[]⟩⟩, by rw [evalProg, h1, h3]; simp only [bind, Except.bind, h5]; rfl, ?_⟩
    have : (fun _ => none) = (GqProg.drained h o).contents := by
      funext p; simp only [GqProg.contents]
    rw [← this]; exact repW_nil

namespace Demo
/-- a deserialised `Gqdit` with a hole `10..=19`, appended to one that misses `0..=4` -/
def gp : GqProg U8 (Interval U8) Nat :=
  .append (.insert (.deserialized [(iv 20 255, {1}), (iv 5 9, ∅)]) {2} (iv 0 25)) (.insert .new {3} (iv 8 30))
end Demo

/-- **C71**: for every program, `identifiers_at_point` gives the reference contents; exactly the points with contents lie
in an interval that serialising the `Gqdit` yields, with these identifiers. -/
theorem C71_contents {h : GqProg I K D} (hf : h.Fine) :
    ∃ g : Gqdit K D, evalProg h = .ok g ∧ ∀ p, g.identifiersAtPoint p = .ok ((h.contents p).getD ∅) ∧
      ∀ s, h.contents p = some s ↔ ∃ e ∈ g.serialize.elems, Mem p e.1 ∧ e.2 = s := by
  obtain ⟨g, h1, h2⟩ := evalProg_rep hf
  exact ⟨g, h1, fun p => ⟨h2.identifiers p, fun s => (h2.at_iff p s).symm⟩⟩

example : (Demo.gp).Fine := by
  simp only [Demo.gp, GqProg.Fine, List.mem_cons, List.mem_nil_iff, or_false, forall_eq_or_imp, forall_eq, List.pairwise_cons,
    List.Pairwise.nil, and_true, valid_iff, not_false_eq_true, IsEmpty.forall_iff, implies_true]
  refine ⟨⟨⟨⟨?_, ?_⟩, ?_⟩, ?_⟩, trivial, ?_⟩
  · decide
  · decide
  · rw [overlap_iff (by decide) (by decide)]; decide
  · decide
  · decide

example : ∃ g, evalProg Demo.gp = .ok g ∧ g.identifiersAtPoint (Demo.u8 15) = .ok ∅ ∧ g.identifiersAtPoint (Demo.u8 22) = .ok {1, 2, 3} ∧
    g.inner.iter = [(Demo.iv 5 7, {2}), (Demo.iv 8 9, {2, 3}), (Demo.iv 20 25, {1, 2, 3}), (Demo.iv 26 30, {1, 3}), (Demo.iv 31 255, {1})] :=
  ⟨_, rfl, by decide⟩

/-- programs with the same reference contents answer alike -/
theorem C71_determined {h h' : GqProg I K D} (hf : h.Fine) (hf' : h'.Fine) (hc : ∀ p, h.contents p = h'.contents p) :
    ∃ g g' : Gqdit K D, evalProg h = .ok g ∧ evalProg h' = .ok g' ∧ ∀ p, g.identifiersAtPoint p = g'.identifiersAtPoint p := by
  obtain ⟨g, h1, h2⟩ := C71_contents hf
  obtain ⟨g', h3, h4⟩ := C71_contents hf'
  exact ⟨g, g', h1, h3, fun p => by rw [(h2 p).1, (h4 p).1, hc p]⟩

/-! ## C72: no call panics, and what the gap queries give -/

namespace Gqdit
theorem expandRight_weak {g : Gqdit K D} (hch : Chain g.inner.inner) (d : D) (p : I) :
    (g.expandGapsAtPointRight d p = .ok none ∧ ∀ e ∈ g.inner.inner, Mem p e.1 → validIdentifier d e.2 = false) ∨
    ∃ k a, g.expandGapsAtPointRight d p = .ok (some k) ∧ a ∈ g.inner.inner ∧ p ≤ stop a.1 ∧
      (∀ z ∈ g.inner.inner, p ≤ stop z.1 → z = a ∨ stop a.1 < start z.1) ∧ start k = start a.1 ∧ stop a.1 ≤ stop k ∧
      ∀ z ∈ g.inner.inner, start a.1 ≤ start z.1 → (stop z.1 ≤ stop k ∧ validIdentifier d z.2 = true) ∨ stop k < start z.1 := by
  have hq' : start (⟨p, MAX⟩ : Interval I) ≤ stop (⟨p, MAX⟩ : Interval I) := le_max p
  have hiu : (iu p : Res (Interval I)) = .ok ⟨p, MAX⟩ := by
    unfold iu mkChecked; rw [invalidIntervalPanic_ok hq']; rfl
  unfold Gqdit.expandGapsAtPointRight
  rw [hiu]
  simp only [bind, Except.bind, NoditMap.overlapping_ok hch hq', pure, Except.pure]
  have hR : Chain (g.inner.inner.filter (ovl (⟨p, MAX⟩ : Interval I))) := hch.filter _
  have hmR : ∀ e, e ∈ g.inner.inner.filter (ovl (⟨p, MAX⟩ : Interval I)) ↔ e ∈ g.inner.inner ∧ p ≤ stop e.1 := by
    intro e
    simp only [List.mem_filter, ovl, decide_eq_true_eq, start, stop]
    exact ⟨fun ⟨h1, _, h2⟩ => ⟨h1, h2⟩, fun ⟨h1, h2⟩ => ⟨h1, le_max _, h2⟩⟩
  generalize g.inner.inner.filter (ovl (⟨p, MAX⟩ : Interval I)) = R at hR hmR
  cases R with
  | nil => exact Or.inl ⟨rfl, fun e he hp => absurd ((hmR e).2 ⟨he, hp.2⟩) (by simp)⟩
  | cons a R =>
    obtain ⟨ha, hpa⟩ := (hmR a).1 (by simp)
    have hfirst : ∀ z ∈ g.inner.inner, p ≤ stop z.1 → z = a ∨ stop a.1 < start z.1 := by
      intro z hz hpz
      rcases List.mem_cons.1 ((hmR z).2 ⟨hz, hpz⟩) with rfl | hmem
      · exact Or.inl rfl
      · exact Or.inr ((Chain.cons.1 hR).2.1 z hmem)
    by_cases hv : validIdentifier d a.2 = true
    · right
      rw [List.takeWhile_cons_of_pos (p := fun e : K × Finset D => validIdentifier d e.2) hv, List.map_cons, coalesce]
      have hsplit := List.takeWhile_append_dropWhile (p := fun e : K × Finset D => validIdentifier d e.2) (l := R)
      have hT : ∀ z ∈ R.takeWhile (fun e => validIdentifier d e.2), validIdentifier d z.2 = true :=
        fun z hz => List.all_eq_true.1 (List.all_takeWhile (p := fun e : K × Finset D => validIdentifier d e.2) (l := R)) z hz
      generalize R.takeWhile (fun e => validIdentifier d e.2) = T at hsplit hT
      generalize R.dropWhile (fun e => validIdentifier d e.2) = U at hsplit
      subst hsplit
      rw [← List.cons_append] at hR hmR
      obtain ⟨hcT, hcU, hTU⟩ := Chain.append.1 hR
      have hcK : ChainK (a.1 :: T.map Prod.fst) := by
        rw [← List.map_cons]
        exact ⟨fun k hk => by obtain ⟨z, hz, rfl⟩ := List.mem_map.1 hk; exact hcT.1 z hz, List.pairwise_map.2 hcT.2⟩
      obtain ⟨k, e1, e2, e3, e4, -⟩ := coalesceRight hcK
      simp only [bind, Except.bind, pure, Except.pure] at e1
      have hstop : ∀ z ∈ a :: T, stop z.1 ≤ stop k := fun z hz => e3 z.1 (by
        rw [← List.map_cons]; exact List.mem_map_of_mem hz)
      obtain ⟨w, hw, hwk⟩ : ∃ w ∈ a :: T, stop w.1 = stop k := by
        obtain ⟨z, hz, hzk⟩ := e4
        rw [← List.map_cons] at hz
        obtain ⟨w, hw, rfl⟩ := List.mem_map.1 hz
        exact ⟨w, hw, hzk⟩
      refine ⟨k, a, by rw [e1]; rfl, ha, hpa, hfirst, e2, hstop a (by simp), fun z hz haz => ?_⟩
      have hpz : p ≤ stop z.1 := by
        by_cases hza : z = a
        · rw [hza]; exact hpa
        · have := hch.1 z hz; have := hch.1 a ha
          rcases hch.apart hz ha hza with hlt | hlt <;> order
      rcases List.mem_append.1 ((hmR z).2 ⟨hz, hpz⟩) with hzT | hzU
      · refine Or.inl ⟨hstop z hzT, ?_⟩
        rcases List.mem_cons.1 hzT with rfl | hzT
        · exact hv
        · exact hT z hzT
      · have := hTU w hw z hzU
        exact Or.inr (by order)
    · left
      rw [List.takeWhile_cons_of_neg (p := fun e : K × Finset D => validIdentifier d e.2) hv]
      refine ⟨rfl, fun e he hp => ?_⟩
      rcases hfirst e he hp.2 with rfl | hlt
      · simpa using hv
      · have := hp.1; order

theorem expandLeft_weak {g : Gqdit K D} (hch : Chain g.inner.inner) (d : D) (p : I) :
    (g.expandGapsAtPointLeft d p = .ok none ∧ ∀ e ∈ g.inner.inner, Mem p e.1 → validIdentifier d e.2 = false) ∨
    ∃ k a, g.expandGapsAtPointLeft d p = .ok (some k) ∧ a ∈ g.inner.inner ∧ start a.1 ≤ p ∧
      (∀ z ∈ g.inner.inner, start z.1 ≤ p → z = a ∨ stop z.1 < start a.1) ∧ stop k = stop a.1 ∧ start k ≤ start a.1 ∧
      ∀ z ∈ g.inner.inner, stop z.1 ≤ stop a.1 → (start k ≤ start z.1 ∧ validIdentifier d z.2 = true) ∨ stop z.1 < start k := by
  have hq' : start (⟨MIN, p⟩ : Interval I) ≤ stop (⟨MIN, p⟩ : Interval I) := min_le p
  have hiu : (ui p : Res (Interval I)) = .ok ⟨MIN, p⟩ := by
    unfold ui mkChecked; rw [invalidIntervalPanic_ok hq']; rfl
  unfold Gqdit.expandGapsAtPointLeft
  rw [hiu]
  simp only [bind, Except.bind, NoditMap.overlapping_ok hch hq', pure, Except.pure]
  have hR : (g.inner.inner.filter (ovl (⟨MIN, p⟩ : Interval I))).reverse.Pairwise (fun a b => stop b.1 < start a.1) :=
    List.pairwise_reverse.2 (hch.filter _).2
  have hmR : ∀ e, e ∈ (g.inner.inner.filter (ovl (⟨MIN, p⟩ : Interval I))).reverse ↔ e ∈ g.inner.inner ∧ start e.1 ≤ p := by
    intro e
    simp only [List.mem_reverse, List.mem_filter, ovl, decide_eq_true_eq, start, stop]
    exact ⟨fun ⟨h1, h2, _⟩ => ⟨h1, h2⟩, fun ⟨h1, h2⟩ => ⟨h1, h2, min_le _⟩⟩
  generalize (g.inner.inner.filter (ovl (⟨MIN, p⟩ : Interval I))).reverse = R at hR hmR
  cases R with
  | nil => exact Or.inl ⟨rfl, fun e he hp => absurd ((hmR e).2 ⟨he, hp.1⟩) (by simp)⟩
  | cons a R =>
    obtain ⟨ha, hpa⟩ := (hmR a).1 (by simp)
    have hlast : ∀ z ∈ g.inner.inner, start z.1 ≤ p → z = a ∨ stop z.1 < start a.1 := by
      intro z hz hpz
      rcases List.mem_cons.1 ((hmR z).2 ⟨hz, hpz⟩) with rfl | hmem
      · exact Or.inl rfl
      · exact Or.inr ((List.pairwise_cons.1 hR).1 z hmem)
    by_cases hv : validIdentifier d a.2 = true
    · right
      rw [List.takeWhile_cons_of_pos (p := fun e : K × Finset D => validIdentifier d e.2) hv, List.map_cons, coalesce]
      have hsplit := List.takeWhile_append_dropWhile (p := fun e : K × Finset D => validIdentifier d e.2) (l := R)
      have hT : ∀ z ∈ R.takeWhile (fun e => validIdentifier d e.2), validIdentifier d z.2 = true :=
        fun z hz => List.all_eq_true.1 (List.all_takeWhile (p := fun e : K × Finset D => validIdentifier d e.2) (l := R)) z hz
      generalize R.takeWhile (fun e => validIdentifier d e.2) = T at hsplit hT
      generalize R.dropWhile (fun e => validIdentifier d e.2) = U at hsplit
      subst hsplit
      rw [← List.cons_append] at hR hmR
      obtain ⟨hcT, hcU, hTU⟩ := List.pairwise_append.1 hR
      have hvT : ∀ z ∈ a :: T, start z.1 ≤ stop z.1 := fun z hz => hch.1 z ((hmR z).1 (List.mem_append_left _ hz)).1
      obtain ⟨k, e1, e2, e3, e4, -⟩ := coalesceLeft (x := a.1) (xs := T.map Prod.fst) (by
        rw [← List.map_cons]
        intro k hk; obtain ⟨z, hz, rfl⟩ := List.mem_map.1 hk; exact hvT z hz) (by
        rw [← List.map_cons]
        exact List.pairwise_map.2 hcT)
      simp only [bind, Except.bind, pure, Except.pure] at e1
      have hstart : ∀ z ∈ a :: T, start k ≤ start z.1 := fun z hz => e3 z.1 (by
        rw [← List.map_cons]; exact List.mem_map_of_mem hz)
      obtain ⟨w, hw, hwk⟩ : ∃ w ∈ a :: T, start w.1 = start k := by
        obtain ⟨z, hz, hzk⟩ := e4
        rw [← List.map_cons] at hz
        obtain ⟨w, hw, rfl⟩ := List.mem_map.1 hz
        exact ⟨w, hw, hzk⟩
      refine ⟨k, a, by rw [e1]; rfl, ha, hpa, hlast, e2, hstart a (by simp), fun z hz haz => ?_⟩
      have hpz : start z.1 ≤ p := by
        by_cases hza : z = a
        · rw [hza]; exact hpa
        · have := hch.1 z hz; have := hch.1 a ha
          rcases hch.apart hz ha hza with hlt | hlt <;> order
      rcases List.mem_append.1 ((hmR z).2 ⟨hz, hpz⟩) with hzT | hzU
      · refine Or.inl ⟨hstart z hzT, ?_⟩
        rcases List.mem_cons.1 hzT with rfl | hzT
        · exact hv
        · exact hT z hzT
      · have := hTU w hw z hzU
        exact Or.inr (by order)
    · left
      rw [List.takeWhile_cons_of_neg (p := fun e : K × Finset D => validIdentifier d e.2) hv]
      refine ⟨rfl, fun e he hp => ?_⟩
      rcases hlast e he hp.1 with rfl | hlt
      · simpa using hv
      · have := hp.2; order

/-- `gaps_with_identifier` on any well-formed inner map -/
theorem gapsWith_weak {g : Gqdit K D} (hch : Chain g.inner.inner) (d : D) {q : Q} (hq : Valid q) :
    ∃ l, g.gapsWithIdentifier d q = .ok l ∧ (∀ k ∈ l, start k ≤ stop k) ∧
      l.Pairwise (fun a b : K => stop a < start b ∧ up (stop a) ≠ some (start b)) ∧
      (∀ e ∈ g.inner.inner, (∃ k ∈ l, Overlap e.1 k) → validIdentifier d e.2 = true) ∧
      (∀ e ∈ g.inner.inner, validIdentifier d e.2 = true → Overlap e.1 q → ∃ k ∈ l, start k ≤ start e.1 ∧ stop e.1 ≤ stop k) := by
  have hq' := valid_iff.1 hq
  -- from a list of pieces to the coalesced list
  have fin : ∀ ls : List K, ChainK ls → (∀ e ∈ g.inner.inner, (∃ k ∈ ls, Overlap e.1 k) → validIdentifier d e.2 = true) →
      (∀ e ∈ g.inner.inner, validIdentifier d e.2 = true → Overlap e.1 q → ∃ k ∈ ls, start k ≤ start e.1 ∧ stop e.1 ≤ stop k) →
      ∃ l, coalesce (fun x y => do
          if ← touchesOrdered x y then pure (.ok (ofInterval (← mergeOrdered x y) : K)) else pure (.error (x, y))) ls
          = (.ok l : Res (List K)) ∧ (∀ k ∈ l, start k ≤ stop k) ∧
        l.Pairwise (fun a b : K => stop a < start b ∧ up (stop a) ≠ some (start b)) ∧
        (∀ e ∈ g.inner.inner, (∃ k ∈ l, Overlap e.1 k) → validIdentifier d e.2 = true) ∧
        (∀ e ∈ g.inner.inner, validIdentifier d e.2 = true → Overlap e.1 q → ∃ k ∈ l, start k ≤ start e.1 ∧ stop e.1 ≤ stop k) := by
    intro ls h1 h2 h3
    cases ls with
    | nil => exact ⟨[], rfl, by simp, by simp, by simp, fun e he hv ho => by simpa using h3 e he hv ho⟩
    | cons x xs =>
      obtain ⟨rs, e1, e2, e3, e4, e5, -⟩ := coalesceTouch h1
      refine ⟨rs, e1, fun k hk => (e2 k hk).1, e3, ?_, ?_⟩
      · rintro e he ⟨k, hk, p, hpe, hpk⟩
        obtain ⟨k', hk', hp'⟩ := e5 k hk p hpk
        exact h2 e he ⟨k', hk', p, hpe, hp'⟩
      · intro e he hv ho
        obtain ⟨k, hk, h5, h6⟩ := h3 e he hv ho
        obtain ⟨r, hr, h7, h8⟩ := e4 k hk
        exact ⟨r, hr, le_trans h7 h5, le_trans h6 h8⟩
  unfold Gqdit.gapsWithIdentifier
  rw [invalidIntervalPanic_ok hq', NoditMap.overlapping_ok hch hq']
  simp only [bind, Except.bind]
  simp only [bind, Except.bind] at fin
  generalize hN : List.filter (fun gap =>
      !InclusiveInterval.containsPoint gap (start q) && !InclusiveInterval.containsPoint gap (stop q))
      (List.map Prod.fst (List.filter (fun e => validIdentifier d e.2) (List.filter (ovl q) g.inner.inner))) = N
  have hNch : ChainK N := by
    subst hN
    have := (hch.filter (ovl q)).filter (fun e => validIdentifier d e.2)
    refine ⟨?_, (List.pairwise_map.2 this.2).filter _⟩
    intro k hk
    obtain ⟨e, he, rfl⟩ := List.mem_map.1 (List.mem_filter.1 hk).1
    exact this.1 e he
  have hNm : ∀ k, k ∈ N ↔ ∃ e ∈ g.inner.inner, e.1 = k ∧ validIdentifier d e.2 = true ∧ start q < start e.1 ∧
      stop e.1 < stop q := by
    intro k
    subst hN
    simp only [List.mem_filter, List.mem_map, Bool.and_eq_true, Bool.not_eq_true', InclusiveInterval.containsPoint,
      Bool.and_eq_false_iff, decide_eq_false_iff_not, ge_iff_le, ovl, decide_eq_true_eq]
    constructor
    · rintro ⟨⟨e, ⟨⟨he, h1, h2⟩, h3⟩, rfl⟩, h4, h5⟩
      have := hch.1 e he
      exact ⟨e, he, rfl, h3, by rcases h4 with h4 | h4 <;> order, by rcases h5 with h5 | h5 <;> order⟩
    · rintro ⟨e, he, rfl, h3, h4, h5⟩
      have := hch.1 e he
      exact ⟨⟨e, ⟨⟨he, by order, by order⟩, h3⟩, rfl⟩, Or.inl (by order), Or.inr (by order)⟩
  -- the list of pieces, unless the end pieces overlap
  have main : ∀ lo ro : Option K,
      (lo = none → ∀ e ∈ g.inner.inner, Mem (start q) e.1 → validIdentifier d e.2 = false) →
      (ro = none → ∀ e ∈ g.inner.inner, Mem (stop q) e.1 → validIdentifier d e.2 = false) →
      (∀ k, lo = some k → ∃ a, a ∈ g.inner.inner ∧ start a.1 ≤ start q ∧
        (∀ z ∈ g.inner.inner, start z.1 ≤ start q → z = a ∨ stop z.1 < start a.1) ∧ stop k = stop a.1 ∧ start k ≤ start a.1 ∧
        ∀ z ∈ g.inner.inner, stop z.1 ≤ stop a.1 → (start k ≤ start z.1 ∧ validIdentifier d z.2 = true) ∨ stop z.1 < start k) →
      (∀ k, ro = some k → ∃ a, a ∈ g.inner.inner ∧ stop q ≤ stop a.1 ∧
        (∀ z ∈ g.inner.inner, stop q ≤ stop z.1 → z = a ∨ stop a.1 < start z.1) ∧ start k = start a.1 ∧ stop a.1 ≤ stop k ∧
        ∀ z ∈ g.inner.inner, start a.1 ≤ start z.1 → (stop z.1 ≤ stop k ∧ validIdentifier d z.2 = true) ∨ stop k < start z.1) →
      (∀ k k', lo = some k → ro = some k' → stop k < start k') →
      ChainK (lo.toList ++ N ++ ro.toList) ∧
      (∀ e ∈ g.inner.inner, (∃ k ∈ lo.toList ++ N ++ ro.toList, Overlap e.1 k) → validIdentifier d e.2 = true) ∧
      (∀ e ∈ g.inner.inner, validIdentifier d e.2 = true → Overlap e.1 q →
        ∃ k ∈ lo.toList ++ N ++ ro.toList, start k ≤ start e.1 ∧ stop e.1 ≤ stop k) := by
    intro lo ro hlo hro hl hr hlr
    have hmem : ∀ k, k ∈ lo.toList ++ N ++ ro.toList ↔ lo = some k ∨ k ∈ N ∨ ro = some k := by
      intro k; simp only [List.mem_append, Option.mem_toList, or_assoc]
    refine ⟨⟨fun k hk => ?_, ?_⟩, ?_, ?_⟩
    · rcases (hmem k).1 hk with hk | hk | hk
      · obtain ⟨a, ha, h1, h2, h3, h4, -⟩ := hl k hk
        have := hch.1 a ha; order
      · exact hNch.1 k hk
      · obtain ⟨a, ha, h1, h2, h3, h4, -⟩ := hr k hk
        have := hch.1 a ha; order
    · rw [List.pairwise_append, List.pairwise_append]
      refine ⟨⟨by cases lo <;> simp, hNch.2, ?_⟩, by cases ro <;> simp, ?_⟩
      · intro x hx b hb
        have hx : lo = some x := by simpa using hx
        obtain ⟨a, ha, h1, h2, h3, h4, -⟩ := hl x hx
        obtain ⟨e, he, rfl, hv, h5, h6⟩ := (hNm b).1 hb
        rw [h3]
        have hne : a ≠ e := by rintro rfl; order
        have := hch.1 e he; have := hch.1 a ha
        rcases hch.apart ha he hne with hlt | hlt
        · exact hlt
        · order
      · intro x hx b hb
        have hb : ro = some b := by simpa using hb
        rcases List.mem_append.1 hx with hx | hx
        · exact hlr x b (by simpa using hx) hb
        · obtain ⟨a, ha, h1, h2, h3, h4, -⟩ := hr b hb
          obtain ⟨e, he, rfl, hv, h5, h6⟩ := (hNm x).1 hx
          rw [h3]
          have hne : e ≠ a := by rintro rfl; order
          have := hch.1 e he; have := hch.1 a ha
          rcases hch.apart he ha hne with hlt | hlt
          · exact hlt
          · order
    · rintro e he ⟨k, hk, p, hpe, hpk⟩
      have e1 := hpe.1; have e2 := hpe.2; have e3 := hpk.1; have e4 := hpk.2
      have := hch.1 e he
      rcases (hmem k).1 hk with hk | hk | hk
      · obtain ⟨a, ha, h1, h2, h3, h4, h5⟩ := hl k hk
        have := hch.1 a ha
        have hse : stop e.1 ≤ stop a.1 := by
          by_cases hea : e = a
          · rw [hea]
          · rcases hch.apart he ha hea with hlt | hlt <;> order
        rcases h5 e he hse with h | h
        · exact h.2
        · order
      · obtain ⟨z, hz, rfl, hv, h5, h6⟩ := (hNm k).1 hk
        rw [hch.eq_of_common he hz (le_trans e1 e4) (le_trans e3 e2)]; exact hv
      · obtain ⟨a, ha, h1, h2, h3, h4, h5⟩ := hr k hk
        have := hch.1 a ha
        have hse : start a.1 ≤ start e.1 := by
          by_cases hea : e = a
          · rw [hea]
          · rcases hch.apart he ha hea with hlt | hlt <;> order
        rcases h5 e he hse with h | h
        · exact h.2
        · order
    · rintro e he hv ⟨p, hpe, hpq⟩
      have e1 := hpe.1; have e2 := hpe.2; have e3 := hpq.1; have e4 := hpq.2
      rcases le_or_gt (start e.1) (start q) with hs | hs
      · have hm : Mem (start q) e.1 := ⟨hs, by order⟩
        cases hlo' : lo with
        | none => have := hlo hlo' e he hm; rw [hv] at this; cases this
        | some k =>
          obtain ⟨a, ha, h1, h2, h3, h4, h5⟩ := hl k hlo'
          rcases h2 e he hs with rfl | hlt
          · exact ⟨k, by simp, h4, h3.ge⟩
          · have := hm.2; have := hm.1; order
      · rcases le_or_gt (stop q) (stop e.1) with ht | ht
        · have hm : Mem (stop q) e.1 := ⟨by order, ht⟩
          cases hro' : ro with
          | none => have := hro hro' e he hm; rw [hv] at this; cases this
          | some k =>
            obtain ⟨a, ha, h1, h2, h3, h4, h5⟩ := hr k hro'
            rcases h2 e he ht with rfl | hlt
            · exact ⟨k, by simp, h3.le, h4⟩
            · have := hm.2; have := hm.1; order
        · exact ⟨e.1, (hmem _).2 (Or.inr (Or.inl ((hNm _).2 ⟨e, he, rfl, hv, hs, ht⟩))), le_refl _, le_refl _⟩
  rcases expandLeft_weak hch d (start q) with ⟨hl1, hl2⟩ | ⟨kl, a, hl1, hl2, hl3, hl4, hl5, hl6, hl7⟩ <;>
    rcases expandRight_weak hch d (stop q) with ⟨hr1, hr2⟩ | ⟨kr, b, hr1, hr2, hr3, hr4, hr5, hr6, hr7⟩ <;>
    simp only [hl1, hr1, pure, Except.pure]
  · obtain ⟨h1, h2, h3⟩ := main none none (fun _ => hl2) (fun _ => hr2) (by simp) (by simp) (by simp)
    exact fin _ h1 h2 h3
  · obtain ⟨h1, h2, h3⟩ := main none (some kr) (fun _ => hl2) (by simp) (by simp)
      (fun k hk => by injection hk with hk; subst hk; exact ⟨b, hr2, hr3, hr4, hr5, hr6, hr7⟩) (by simp)
    exact fin _ h1 h2 h3
  · obtain ⟨h1, h2, h3⟩ := main (some kl) none (by simp) (fun _ => hr2)
      (fun k hk => by injection hk with hk; subst hk; exact ⟨a, hl2, hl3, hl4, hl5, hl6, hl7⟩) (by simp) (by simp)
    exact fin _ h1 h2 h3
  · have hav := hch.1 a hl2
    have hbv := hch.1 b hr2
    by_cases hab : a = b
    · subst hab
      have hov : overlapsOrdered kl kr = true := by
        simp only [overlapsOrdered, InclusiveInterval.containsPoint, Bool.or_eq_true, Bool.and_eq_true, decide_eq_true_eq,
          ge_iff_le]
        exact Or.inl ⟨by order, by order⟩
      have hle : start kl ≤ stop kr := by order
      have hm : (mergeOrdered kl kr : Res (Interval I)) = .ok ⟨start kl, stop kr⟩ := ii_ok hle
      have hNnil : N = [] := List.eq_nil_iff_forall_not_mem.2 fun k hk => by
        obtain ⟨e, he, rfl, hv, h5, h6⟩ := (hNm k).1 hk
        have hne : e ≠ a := by rintro rfl; order
        have := hch.1 e he
        rcases hch.apart he hl2 hne with hlt | hlt <;> order
      simp only [hov, hm, if_true, hNnil, Option.toList_some, Option.toList_none, List.append_nil]
      refine fin _ ⟨by simp [start_of, stop_of, hle], by simp⟩ ?_ ?_
      · rintro e he ⟨k, hk, p, hpe, hpk⟩
        rw [List.mem_singleton] at hk; subst hk
        have hpk := mem_ofInterval.1 hpk
        have e1 := hpe.1; have e2 := hpe.2; have e3 : start kl ≤ p := hpk.1; have e4 : p ≤ stop kr := hpk.2
        have := hch.1 e he
        by_cases hea : e = a
        · subst hea
          rcases hl7 e he (le_refl _) with h | h
          · exact h.2
          · order
        · rcases hch.apart he hl2 hea with hlt | hlt
          · rcases hl7 e he (by order) with h | h
            · exact h.2
            · order
          · rcases hr7 e he (by order) with h | h
            · exact h.2
            · order
      · rintro e he hv ⟨p, hpe, hpq⟩
        have e1 := hpe.1; have e2 := hpe.2; have e3 := hpq.1; have e4 := hpq.2
        have hea : e = a := by
          by_contra hea
          have := hch.1 e he
          rcases hch.apart he hl2 hea with hlt | hlt <;> order
        subst hea
        refine ⟨_, List.mem_singleton.2 rfl, ?_, ?_⟩
        · rw [start_of]; show start kl ≤ _; order
        · rw [stop_of]; show _ ≤ stop kr; order
    · have hlt : stop a.1 < start b.1 := by
        rcases hch.apart hl2 hr2 hab with hlt | hlt
        · exact hlt
        · order
      have hov : overlapsOrdered kl kr = false := by
        simp only [overlapsOrdered, InclusiveInterval.containsPoint, Bool.or_eq_false_iff, Bool.and_eq_false_iff,
          decide_eq_false_iff_not, ge_iff_le]
        exact ⟨Or.inr (by order), Or.inr (by order)⟩
      simp only [hov, Bool.false_eq_true, if_false]
      obtain ⟨h1, h2, h3⟩ := main (some kl) (some kr) (by simp) (by simp)
        (fun k hk => by injection hk with hk; subst hk; exact ⟨a, hl2, hl3, hl4, hl5, hl6, hl7⟩)
        (fun k hk => by injection hk with hk; subst hk; exact ⟨b, hr2, hr3, hr4, hr5, hr6, hr7⟩)
        (fun k k' hk hk' => by injection hk with hk; injection hk' with hk'; subst hk hk'; order)
      exact fin _ h1 h2 h3
end Gqdit

omit [LawfulInterval I K] [DecidableEq D] in
private theorem serialize_elems (g : Gqdit K D) : g.serialize.elems = g.inner.inner := rfl

/-- **C72**: on every `Gqdit` a program can make, whatever holes it has, a call panics iff its interval argument contains
no point. -/
theorem C72_panics_iff {h h' : GqProg I K D} (hf : h.Fine) (hf' : h'.Fine) (ids : Finset D) (d : D) (k : K) (q : Q) (p : I) :
    ∃ g g' : Gqdit K D, evalProg h = .ok g ∧ evalProg h' = .ok g' ∧
    ((∃ e, g.insert ids k = .error e) ↔ ¬ Valid k) ∧ ((∃ e, g.cutWithIdentifiers ids q = .error e) ↔ ¬ Valid q) ∧
    ((∃ e, g.cutAllIdentifiers q = .error e) ↔ ¬ Valid q) ∧ ((∃ e, g.gapsNoIdentifier q = .error e) ↔ ¬ Valid q) ∧
    ((∃ e, g.gapsWithIdentifier d q = .error e) ↔ ¬ Valid q) ∧ (∃ r, g.identifiersAtPoint p = .ok r) ∧
    (∃ r, g.append g' = .ok r) := by
  obtain ⟨g, hg, hr⟩ := evalProg_rep hf
  obtain ⟨g', hg', hr'⟩ := evalProg_rep hf'
  have hch : Chain g.inner.inner := wf_iff_chain.1 hr.wf
  refine ⟨g, g', hg, hg', ?_, ?_, ?_, ?_, ?_, ⟨_, hr.identifiers p⟩, ?_⟩
  · by_cases hk : Valid k
    · obtain ⟨_, h1, -⟩ := hr.insert hk ids; simp [h1, hk]
    · simp [insert_bad hk, hk]
  · by_cases hk : Valid q
    · obtain ⟨_, h1, -⟩ := hr.cutWith hk ids; simp [h1, hk]
    · simp [cutWith_bad hk, hk]
  · by_cases hk : Valid q
    · obtain ⟨_, h1, -⟩ := hr.cutAll hk; simp [h1, hk]
    · simp [cutAll_bad hk, hk]
  · by_cases hk : Valid q
    · have : ∃ l, g.gapsNoIdentifier q = .ok l := ⟨_, by
        unfold Gqdit.gapsNoIdentifier
        rw [invalidIntervalPanic_ok (valid_iff.1 hk), NoditMap.overlapping_ok hch (valid_iff.1 hk)]; rfl⟩
      obtain ⟨l, hl⟩ := this
      simp [hl, hk]
    · have : g.gapsNoIdentifier q = .error .invalidInterval := by
        unfold Gqdit.gapsNoIdentifier; rw [invalidIntervalPanic_err (by rwa [valid_iff] at hk)]; rfl
      simp [this, hk]
  · by_cases hk : Valid q
    · obtain ⟨_, h1, -⟩ := gapsWith_weak hch d hk; simp [h1, hk]
    · have : g.gapsWithIdentifier d q = .error .invalidInterval := by
        unfold Gqdit.gapsWithIdentifier; rw [invalidIntervalPanic_err (by rwa [valid_iff] at hk)]; rfl
      simp [this, hk]
  · obtain ⟨_, h1, -⟩ := hr.append hr'
    exact ⟨_, h1⟩

/-- **C72**: `gaps_no_identifier(q)` lists disjoint intervals in ascending order: exactly the points with contents, but no
identifier, whose stored interval meets `q`. -/
theorem C72_gaps_no_identifier {h : GqProg I K D} (hf : h.Fine) {q : Q} (hq : Valid q) :
    ∃ (g : Gqdit K D) (l : List K), evalProg h = .ok g ∧ g.gapsNoIdentifier q = .ok l ∧ Ascending l ∧
      (∀ k, k ∈ l ↔ (k, ∅) ∈ g.serialize.elems ∧ Overlap k q) ∧
      (∀ k ∈ l, ∀ p, Mem p k → h.contents p = some ∅) ∧ (∀ p, Mem p q → h.contents p = some ∅ → ∃ k ∈ l, Mem p k) := by
  obtain ⟨g, hg, hr⟩ := evalProg_rep hf
  have hch : Chain g.inner.inner := wf_iff_chain.1 hr.wf
  have hq' := valid_iff.1 hq
  have hm : ∀ k, k ∈ ((g.inner.inner.filter (ovl q)).filter (fun e => decide (e.2 = ∅))).map Prod.fst ↔
      (k, ∅) ∈ g.serialize.elems ∧ Overlap k q := by
    intro k
    simp only [List.mem_map, List.mem_filter, decide_eq_true_eq, serialize_elems]
    constructor
    · rintro ⟨⟨k, v⟩, ⟨⟨he, ho⟩, rfl⟩, rfl⟩
      exact ⟨he, (ovl_iff hq' (hch.1 _ he)).1 ho⟩
    · rintro ⟨he, ho⟩
      exact ⟨(k, ∅), ⟨⟨he, (ovl_iff hq' (hch.1 _ he)).2 ho⟩, rfl⟩, rfl⟩
  refine ⟨g, _, hg, by
    unfold Gqdit.gapsNoIdentifier
    rw [invalidIntervalPanic_ok hq', NoditMap.overlapping_ok hch hq']; rfl, ?_, hm, fun k hk p hp => ?_, fun p hp hc => ?_⟩
  · rw [ascending_iff]
    have := (hch.filter (ovl q)).filter (fun e => decide (e.2 = ∅))
    refine ⟨?_, List.pairwise_map.2 this.2⟩
    intro k hk
    obtain ⟨e, he, rfl⟩ := List.mem_map.1 hk
    exact this.1 e he
  · exact (hr.at_iff p ∅).1 ⟨_, ((hm k).1 hk).1, hp, rfl⟩
  · obtain ⟨⟨k, v⟩, he, hp', hv⟩ := (hr.at_iff p ∅).2 hc
    simp only at hv hp'; subst hv
    exact ⟨k, (hm k).2 ⟨he, p, hp', hp⟩, hp'⟩

/-- **C72**: `gaps_with_identifier(d, q)` lists disjoint intervals in ascending order, no two of them touching. No
point of them holds an identifier other than `d` (points without contents hold none), and every point of `q` with contents and
no identifier other than `d` is in one of them. -/
theorem C72_gaps_with_identifier {h : GqProg I K D} (hf : h.Fine) (d : D) {q : Q} (hq : Valid q) :
    ∃ (g : Gqdit K D) (l : List K), evalProg h = .ok g ∧ g.gapsWithIdentifier d q = .ok l ∧ Ascending l ∧
      l.Pairwise (fun a b => ¬ Touch a b) ∧
      (∀ k ∈ l, ∀ p, Mem p k → ∀ s, h.contents p = some s → ∀ x ∈ s, x = d) ∧
      (∀ p, Mem p q → ∀ s, h.contents p = some s → (∀ x ∈ s, x = d) → ∃ k ∈ l, Mem p k) := by
  obtain ⟨g, hg, hr⟩ := evalProg_rep hf
  have hch : Chain g.inner.inner := wf_iff_chain.1 hr.wf
  obtain ⟨l, h1, h2, h3, h4, h5⟩ := gapsWith_weak hch d hq
  have hvs : ∀ s : Finset D, validIdentifier d s = true ↔ ∀ x ∈ s, x = d := fun s => by
    rw [validIdentifier_iff, Finset.subset_iff]; simp
  refine ⟨g, l, hg, h1, ascending_iff.2 ⟨h2, h3.imp (fun h => h.1)⟩, ?_, ?_, ?_⟩
  · refine (List.pairwise_iff_forall_sublist.2 fun {a b} hs => ?_)
    have hab := List.pairwise_iff_forall_sublist.1 h3 hs
    have ha := h2 a (hs.subset (by simp))
    have hb := h2 b (hs.subset (by simp))
    rw [touch_iff ha hb]
    rintro (ht | ht)
    · exact hab.2 ht
    · have := (up_eq_some.1 ht).1; have := hab.1; order
  · intro k hk p hp s hs
    obtain ⟨e, he, hpe, rfl⟩ := (hr.at_iff p s).2 hs
    exact (hvs _).1 (h4 e he ⟨k, hk, p, hpe, hp⟩)
  · intro p hp s hs hx
    obtain ⟨e, he, hpe, rfl⟩ := (hr.at_iff p s).2 hs
    obtain ⟨k, hk, h6, h7⟩ := h5 e he ((hvs _).2 hx) ⟨p, hpe, hp⟩
    exact ⟨k, hk, le_trans h6 hpe.1, le_trans hpe.2 h7⟩

/-- With holes, `gaps_with_identifier` can return intervals that do not meet the query at all (`5..=9` for the query
`12..=15`), and intervals that span a hole (`5..=255`). -/
example : ∃ g, evalProg (.deserialized [(Demo.iv 20 255, {1}), (Demo.iv 5 9, ∅)] : GqProg Demo.U8 (Interval Demo.U8) Nat) = .ok g ∧
    g.gapsWithIdentifier 1 (Demo.iv 12 15) = .ok [Demo.iv 5 9, Demo.iv 20 255] ∧
    g.gapsWithIdentifier 1 (Demo.iv 7 8) = .ok [Demo.iv 5 255] ∧
    g.gapsWithIdentifier 2 (Demo.iv 12 15) = .ok [Demo.iv 5 9] ∧ g.gapsNoIdentifier (Demo.iv 12 15) = .ok [] :=
  ⟨_, rfl, by decide⟩

end Nodit
