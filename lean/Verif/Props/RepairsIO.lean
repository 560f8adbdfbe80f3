import Verif.Props.SerdeExact
import Verif.Props.GqditStore
/-!
# Verified repairs of deserialisation and of `Gqdit::append` (an appendix)

**What is defined in the namespace `Repair` is not code of `/repo`.** It is the modelled code with small changes: an interval that has
been read is checked before it is used (C47), a `Gqdit` that has been read is filled up to all points (C49), and `append` leaves a new
`Gqdit` in `other` (C35). The theorems show that with them these three claims hold without exceptions. The claims of
`/verif/properties.jsonl` about the code as it is are not affected; they stay partial.
-/
set_option linter.unusedSectionVars false
namespace Nodit
open Spec PointType InclusiveInterval

variable {I K Q V E D : Type} [PointType I] [IntervalType I K] [IntervalType I Q]

namespace Spec
/-- The outcome of reading `input`, when nothing may panic: all elements are readable and valid, none clashes with an earlier one, and
a container `m` results with `P m` of the elements; or there is a first element that is not, and it decides between three errors. -/
def CleanOutcome {X M : Type} (key : X → K) (clash : K → K → Prop) (message : String) (P : M → List X → Prop)
    (input : List (Except E X)) (r : Except (DeError E) M) : Prop :=
  (∃ (l : List X) (m : M), input = l.map .ok ∧ Clashless clash (l.map key) ∧ r = .ok m ∧ P m l) ∨
  ∃ (pre : List X) (x : Except E X) (post : List (Except E X)), input = pre.map .ok ++ x :: post ∧ Clashless clash (pre.map key) ∧
    ((∃ e, x = .error e ∧ r = .error (.format e)) ∨
     (∃ y, x = .ok y ∧ Valid (key y) ∧ (∃ z ∈ pre, clash (key z) (key y)) ∧ r = .error (.custom message)) ∨
     (∃ y, x = .ok y ∧ ¬ Valid (key y) ∧ r = .error (.custom "invalid interval")))

open Classical in
/-- the identifiers a user expects at a point, for a program with several `Gqdit`s: what was read is there, and a drained `Gqdit` is
empty, but a place to insert into like any other -/
noncomputable def GqProg.expected [DecidableEq D] : GqProg I K D → I → Finset D
  | .new, _ => ∅
  | .deserialized l, p => match l.find? (fun e => Mem p e.1) with | some e => e.2 | none => ∅
  | .insert g ids k, p => if Mem p k then g.expected p ∪ ids else g.expected p
  | .cutWithIdentifiers g ids q, p => if Mem p q then g.expected p \ ids else g.expected p
  | .cutAllIdentifiers g q, p => if Mem p q then ∅ else g.expected p
  | .append g other, p => g.expected p ∪ other.expected p
  | .drained _ _, _ => ∅
end Spec

namespace Repair

/-- the check added after `next_element()?` in the four `visit_seq` loops: `if !is_valid(interval) { return Err(custom(..)) }` -/
def checkElement {X : Type} (key : X → K) : Except E X → Except (DeError E) X
  | .error e => .error (.format e)
  | .ok x => if isValid (key x) then .ok x else .error (.custom "invalid interval")

/-- a `deserialize` whose loop has the added check -/
def checked {X M : Type} (key : X → K) (read : List (Except (DeError E) X) → Res (Except (DeError (DeError E)) M))
    (input : List (Except E X)) : Res (Except (DeError E) M) := do
  match ← read (input.map (checkElement key)) with
  | .ok m => pure (.ok m)
  | .error (.format e) => pure (.error e)
  | .error (.custom s) => pure (.error (.custom s))

/-- `NoditMap::deserialize` with the check -/
def deserializeMap (input : List (Except E (K × V))) : Res (Except (DeError E) (NoditMap K V)) :=
  checked Prod.fst NoditMap.deserialize input
/-- `NoditSet::deserialize` with the check -/
def deserializeSet (input : List (Except E K)) : Res (Except (DeError E) (NoditSet K)) := checked id NoditSet.deserialize input
/-- `ZosditMap::deserialize` with the check -/
def deserializeZosdit (picks : Nat → Nat) (input : List (Except E (K × V))) : Res (Except (DeError E) (ZosditMap K V)) :=
  checked Prod.fst (ZosditMap.deserialize · picks) input

section
variable [DecidableEq D]
/-- `Gqdit::deserialize` with the check, and inserting what was read into a new `Gqdit` -/
def deserializeGqdit (input : List (Except E (K × Finset D))) : Res (Except (DeError E) (Gqdit K D)) := do
  match ← deserializeMap input with
  | .error e => pure (.error e)
  | .ok m =>
    let g ← Gqdit.new
    pure (.ok (← g.insertAll m.iter))

/-- `Gqdit::append`, leaving a new `Gqdit` in `other` -/
def append (g other : Gqdit K D) : Res (Gqdit K D × Gqdit K D) := do
  let (g, _) ← g.append other
  pure (g, ← Gqdit.new)

/-- running a program with the repaired functions -/
def evalProg : GqProg I K D → Res (Gqdit K D)
  | .new => Gqdit.new
  | .deserialized l => do
    match ← deserializeGqdit (E := Empty) (l.map .ok) with
    | .ok g => pure g
    | .error _ => .error .explicit
  | .insert g ids k => do (← evalProg g).insert ids k
  | .cutWithIdentifiers g ids q => do (← evalProg g).cutWithIdentifiers ids q
  | .cutAllIdentifiers g q => do (← evalProg g).cutAllIdentifiers q
  | .append g other => do
    let g ← evalProg g
    let other ← evalProg other
    let (g, _) ← append g other
    pure g
  | .drained g other => do
    let g ← evalProg g
    let other ← evalProg other
    let (_, other) ← append g other
    pure other
end

variable [LawfulPoint I]

theorem checkElement_ok {X : Type} {key : X → K} {x : Except E X} {y : X} :
    checkElement key x = .ok y ↔ x = .ok y ∧ Valid (key y) := by
  have hv : ∀ k : K, isValid k = true ↔ Valid k := fun k => by rw [valid_iff]; simp [isValid]
  cases x with
  | error e => simp [checkElement]
  | ok x =>
    by_cases h : isValid (key x) = true
    · simp only [checkElement, h, if_true, Except.ok.injEq]
      exact ⟨fun e => ⟨e, e ▸ (hv _).1 h⟩, And.left⟩
    · simp only [checkElement, h, Except.ok.injEq]
      exact ⟨fun e => (by cases e), fun ⟨e, e'⟩ => absurd ((hv _).2 (e ▸ e')) h⟩

theorem checkElement_error {X : Type} {key : X → K} {x : Except E X} {e : DeError E} (h : checkElement key x = .error e) :
    (∃ e', x = .error e' ∧ e = .format e') ∨ ∃ y, x = .ok y ∧ ¬ Valid (key y) ∧ e = .custom "invalid interval" := by
  have hv : ∀ k : K, isValid k = true ↔ Valid k := fun k => by rw [valid_iff]; simp [isValid]
  cases x with
  | error e' => simp only [checkElement, Except.error.injEq] at h; exact Or.inl ⟨e', rfl, h.symm⟩
  | ok x =>
    simp only [checkElement] at h
    split_ifs at h with h'
    cases h
    exact Or.inr ⟨x, rfl, fun c => h' ((hv _).2 c), rfl⟩

theorem map_check_ok {X : Type} {key : X → K} {input : List (Except E X)} {l : List X}
    (h : input.map (checkElement key) = l.map .ok) : input = l.map .ok := by
  induction input generalizing l with
  | nil => cases l with
    | nil => rfl
    | cons _ _ => simp at h
  | cons a input ih => cases l with
    | nil => simp at h
    | cons b l =>
      simp only [List.map_cons, List.cons.injEq] at h ⊢
      exact ⟨(checkElement_ok.1 h.1).1, ih h.2⟩

/-- the added check turns every panic into an error and changes nothing else -/
theorem checked_outcome {X M : Type} {key : X → K} {clash : K → K → Prop} {msg : String} {P : M → List X → Prop}
    {read : List (Except (DeError E) X) → Res (Except (DeError (DeError E)) M)}
    (h : ∀ input, Outcome key clash msg P input (read input)) (input : List (Except E X)) :
    ∃ r, checked key read input = .ok r ∧ CleanOutcome key clash msg P input r := by
  unfold checked
  rcases h (input.map (checkElement key)) with ⟨l, m, h1, h2, h3, h4⟩ | ⟨pre, x, post, h1, h2, h3⟩
  · rw [h3]
    exact ⟨_, rfl, Or.inl ⟨l, m, map_check_ok h1, h2, rfl, h4⟩⟩
  · obtain ⟨l1, l2, rfl, h5, h6⟩ := List.map_eq_append_iff.1 h1
    obtain ⟨y, l3, rfl, rfl, -⟩ := List.map_eq_cons_iff.1 h6
    have := map_check_ok h5; subst this
    rcases h3 with ⟨e, e1, e2⟩ | ⟨z, e1, e2, e3, e4⟩ | ⟨z, e1, e2, e3⟩
    · rw [e2]
      refine ⟨_, rfl, Or.inr ⟨pre, y, l3, rfl, h2, ?_⟩⟩
      rcases checkElement_error e1 with ⟨e', rfl, rfl⟩ | ⟨z, rfl, hz, rfl⟩
      · exact Or.inl ⟨e', rfl, rfl⟩
      · exact Or.inr (Or.inr ⟨z, rfl, hz, rfl⟩)
    · rw [e4]
      exact ⟨_, rfl, Or.inr ⟨pre, y, l3, rfl, h2, Or.inr (Or.inl ⟨z, (checkElement_ok.1 e1).1, e2, e3, rfl⟩)⟩⟩
    · exact absurd (checkElement_ok.1 e1).2 e2

/-- **C47 of the repaired code**, in full, for `NoditMap`: on every input, no panic, and exactly the expected map or error. -/
theorem Repair_deserialize_map (input : List (Except E (K × V))) :
    ∃ r, deserializeMap input = .ok r ∧
      CleanOutcome Prod.fst Overlap "intervals overlap" (fun (m : NoditMap K V) l => WF m.iter ∧ m.iter.Perm l) input r :=
  checked_outcome (fun input => (C74_map_outcome input _).1 rfl) input

/-- **C47 of the repaired code** for `NoditSet` -/
theorem Repair_deserialize_set (input : List (Except E K)) :
    ∃ r, deserializeSet input = .ok r ∧
      CleanOutcome id Overlap "intervals overlap" (fun (s : NoditSet K) l => Ascending s.iter ∧ s.iter.Perm l) input r :=
  checked_outcome C74_set_outcome input

open Classical in
/-- **C47 of the repaired code** for `ZosditMap` -/
theorem Repair_deserialize_zosdit (input : List (Except E (K × V))) (picks : Nat → Nat) :
    ∃ r, deserializeZosdit picks input = .ok r ∧
      CleanOutcome Prod.fst (fun a b => ¬ ZeroOverlap a b) "intervals non-zero-overlap" (fun (m : ZosditMap K V) l =>
        ZWF m.iter ∧ (∀ q : Interval I, Valid q → (m.iter.filter (fun e => SameInterval e.1 q)).map Prod.snd =
          (l.filter (fun e => SameInterval e.1 q)).map Prod.snd) ∧
        (∀ e ∈ m.iter, GivenFirst e.1 l) ∧ m.iter.length = l.length ∧ m.length = l.length) input r :=
  checked_outcome (fun input => C74_zosdit_outcome input picks) input

example : deserializeMap (E := Unit) [.ok (Demo.iv 0 4, 1), .ok (Demo.iv 9 8, 2), .error ()] =
    .ok (.error (.custom "invalid interval")) ∧
    NoditMap.deserialize (E := Unit) [.ok (Demo.iv 0 4, 1), .ok (Demo.iv 9 8, 2), .error ()] = .error .invalidInterval := by decide

section
variable [DecidableEq D] [LawfulInterval I K] [LawfulInterval I Q]
open Gqdit

theorem pairwise_mem {α : Type} {R : α → α → Prop} {l : List α} (h : l.Pairwise R) {a b : α} (ha : a ∈ l) (hb : b ∈ l) :
    a = b ∨ R a b ∨ R b a := by
  induction h with
  | nil => cases ha
  | cons h1 _ ih =>
    rcases List.mem_cons.1 ha with rfl | ha'
    · rcases List.mem_cons.1 hb with rfl | hb'
      · exact Or.inl rfl
      · exact Or.inr (Or.inl (h1 _ hb'))
    · rcases List.mem_cons.1 hb with rfl | hb'
      · exact Or.inr (Or.inr (h1 _ ha'))
      · exact ih ha' hb'

theorem insertAll_perm {m : NoditMap K (Finset D)} {l : List (K × Finset D)} (hv : ∀ e ∈ l, Valid e.1)
    (hd : l.Pairwise (fun a b => ¬ Overlap a.1 b.1)) (hp : m.iter.Perm l) :
    ∃ g0 g : Gqdit K D, Gqdit.new = .ok g0 ∧ g0.insertAll m.iter = .ok g ∧ Rep g (GqProg.deserialized (I := I) l).expected := by
  obtain ⟨g0, e1, e2⟩ := new_rep (I := I) (K := K) (D := D)
  obtain ⟨g, f, e3, e4, e5⟩ := e2.insertAll (l := m.iter) (fun e he => hv e (hp.mem_iff.1 he))
  refine ⟨g0, g, e1, e3, ?_⟩
  have : (GqProg.deserialized (I := I) l).expected = f := by
    funext p
    ext d
    rw [e5]
    simp only [Finset.notMem_empty, false_or, hp.mem_iff, GqProg.expected]
    classical
    constructor
    · intro h
      split at h
      · rename_i e hf
        exact ⟨e, List.mem_of_find?_eq_some hf, by simpa using List.find?_some hf, h⟩
      · exact absurd h (Finset.notMem_empty d)
    · rintro ⟨e, he, hpe, hde⟩
      split
      · rename_i e' hf
        have h1 := List.mem_of_find?_eq_some hf
        have h2 : Mem p e'.1 := by simpa using List.find?_some hf
        have : e' = e := by
          by_contra hne
          rcases pairwise_mem hd h1 he with h | h | h
          · exact hne h
          · exact h ⟨p, h2, hpe⟩
          · exact h ⟨p, hpe, h2⟩
        rw [this]; exact hde
      · rename_i hf
        have := List.find?_eq_none.1 hf e he
        simp [hpe] at this
  rw [this]; exact e4

/-- reading a `Gqdit` with the repaired code -/
theorem deserializeGqdit_ok {l : List (K × Finset D)} (hv : ∀ e ∈ l, Valid e.1) (hd : l.Pairwise (fun a b => ¬ Overlap a.1 b.1)) :
    ∃ g : Gqdit K D, deserializeGqdit (E := E) (l.map .ok) = .ok (.ok g) ∧ Rep g (GqProg.deserialized (I := I) l).expected := by
  obtain ⟨r, h1, h2⟩ := Repair_deserialize_map (E := E) (l.map Except.ok)
  have inj : ∀ a b : List (K × Finset D), a.map (Except.ok (ε := E)) = b.map .ok → a = b := fun a b h =>
    List.map_injective_iff.2 (fun x y hxy => by injection hxy) h
  rcases h2 with ⟨l', m, a1, a2, rfl, a3, a4⟩ | ⟨pre, x, post, b1, b2, b3⟩
  · have := inj _ _ a1; subst this
    obtain ⟨g0, g, e1, e2, e3⟩ := insertAll_perm (I := I) hv hd a4
    refine ⟨g, ?_, e3⟩
    unfold deserializeGqdit
    rw [h1]
    simp only [bind, Except.bind, pure, Except.pure, e1, e2]
  · exfalso
    obtain ⟨l1, l2, rfl, c1, c2⟩ := List.map_eq_append_iff.1 b1
    obtain ⟨y, l3, rfl, rfl, -⟩ := List.map_eq_cons_iff.1 c2
    have := inj _ _ c1; subst this
    rcases b3 with ⟨e, e1, -⟩ | ⟨z, e1, e2, ⟨w, hw, ho⟩, -⟩ | ⟨z, e1, e2, -⟩
    · cases e1
    · cases e1
      exact (List.pairwise_append.1 hd).2.2 w hw _ (by simp) ho
    · cases e1
      exact e2 (hv _ (by simp))

theorem evalProg_rep' {h : GqProg I K D} (hf : h.Fine) : ∃ g : Gqdit K D, evalProg h = .ok g ∧ Rep g h.expected := by
  induction h with
  | new => exact new_rep
  | deserialized l =>
    obtain ⟨g, h1, h2⟩ := deserializeGqdit_ok (E := Empty) hf.1 hf.2
    exact ⟨g, by simp only [evalProg, h1, bind, Except.bind, pure, Except.pure], h2⟩
  | insert g ids k ih =>
    obtain ⟨g1, h1, h2⟩ := ih hf.1
    obtain ⟨g2, h3, h4⟩ := h2.insert hf.2 ids
    exact ⟨g2, by simp only [evalProg, h1, bind, Except.bind, h3], h4⟩
  | cutWithIdentifiers g ids q ih =>
    obtain ⟨g1, h1, h2⟩ := ih hf.1
    obtain ⟨g2, h3, h4⟩ := h2.cutWith hf.2 ids
    exact ⟨g2, by simp only [evalProg, h1, bind, Except.bind, h3], h4⟩
  | cutAllIdentifiers g q ih =>
    obtain ⟨g1, h1, h2⟩ := ih hf.1
    obtain ⟨g2, h3, h4⟩ := h2.cutAll hf.2
    exact ⟨g2, by simp only [evalProg, h1, bind, Except.bind, h3], h4⟩
  | append g other ih ih' =>
    obtain ⟨g1, h1, h2⟩ := ih hf.1
    obtain ⟨g2, h3, h4⟩ := ih' hf.2
    obtain ⟨g3, h5, h6⟩ := h2.append h4
    obtain ⟨g0, e1, e2⟩ := new_rep (I := I) (K := K) (D := D)
    exact ⟨g3, by simp only [evalProg, append, h1, h3, h5, e1, bind, Except.bind, pure, Except.pure], h6⟩
  | drained g other ih ih' =>
    obtain ⟨g1, h1, h2⟩ := ih hf.1
    obtain ⟨g2, h3, h4⟩ := ih' hf.2
    obtain ⟨g3, h5, h6⟩ := h2.append h4
    obtain ⟨g0, e1, e2⟩ := new_rep (I := I) (K := K) (D := D)
    exact ⟨g0, by simp only [evalProg, append, h1, h3, h5, e1, bind, Except.bind, pure, Except.pure], e2⟩

/-- **C35 and C49 of the repaired code**, in full: in every program with several `Gqdit`s, some of them read from any valid disjoint
elements or drained by `append`, each of them holds the expected identifiers at every point, and the gap queries list the maximal
runs without identifiers, and those free for an identifier. No call panics. -/
theorem Repair_gqdit_programs {h : GqProg I K D} (hf : h.Fine) :
    ∃ g : Gqdit K D, evalProg h = .ok g ∧ (∀ p, g.identifiersAtPoint p = .ok (h.expected p)) ∧
      (∀ q : Q, Valid q → ∃ l, g.gapsNoIdentifier q = .ok l ∧
        ListsIntervals l (fun i => MaximalRun (fun p => h.expected p = ∅) i ∧ Overlap i q)) ∧
      (∀ (d : D) (q : Q), Valid q → ∃ l, g.gapsWithIdentifier d q = .ok l ∧
        ListsIntervals l (fun i => MaximalRun (fun p => h.expected p ⊆ {d}) i ∧ Overlap i q)) := by
  obtain ⟨g, h1, h2⟩ := evalProg_rep' hf
  exact ⟨g, h1, h2.identifiers, fun q hq => h2.gapsNoIdentifier hq, fun d q hq => h2.gapsWithIdentifier d hq⟩

/-- two programs of the repaired code that should hold the same give the same `Gqdit` -/
theorem Repair_gqdit_canonical {h h' : GqProg I K D} (hf : h.Fine) (hf' : h'.Fine) (he : ∀ p, h.expected p = h'.expected p) :
    evalProg h = evalProg h' := by
  obtain ⟨g, h1, h2⟩ := evalProg_rep' hf
  obtain ⟨g', h3, h4⟩ := evalProg_rep' hf'
  rw [h1, h3, h2.eq ((funext he : h.expected = h'.expected) ▸ h4)]

/-- and reading what was written gives the same `Gqdit` -/
theorem Repair_gqdit_round_trip {h : GqProg I K D} (hf : h.Fine) :
    ∃ g : Gqdit K D, evalProg h = .ok g ∧ deserializeGqdit (E := E) (g.serialize.elems.map .ok) = .ok (.ok g) := by
  obtain ⟨g, h1, h2⟩ := evalProg_rep' hf
  have hd : g.inner.iter.Pairwise (fun a b => ¬ Overlap a.1 b.1) :=
    h2.wf.2.imp (fun hb ⟨p, a, b⟩ => lt_irrefl p (hb p p a b))
  obtain ⟨g', h3, h4⟩ := deserializeGqdit_ok (E := E) h2.wf.1 hd
  have : (GqProg.deserialized (I := I) g.inner.iter).expected = h.expected := by
    funext p
    obtain ⟨e, he, hp, hv⟩ := (h2.at_iff p (h.expected p)).2 rfl
    classical
    rw [GqProg.expected]
    split
    · rename_i e' hf
      have a1 := List.mem_of_find?_eq_some hf
      have a2 : Mem p e'.1 := by simpa using List.find?_some hf
      exact ((h2.at_iff p e'.2).1 ⟨e', a1, a2, rfl⟩).symm
    · rename_i hf
      have := List.find?_eq_none.1 hf e he; simp [hp] at this
  rw [this] at h4
  refine ⟨g, h1, ?_⟩
  rw [show g = g' from h2.eq h4, ← show g = g' from h2.eq h4]
  show deserializeGqdit (g.inner.iter.map .ok) = _
  rw [h3, h2.eq h4]

end

/-- a drained `Gqdit` of the repaired code takes inserts (`C35_appended_other_is_broken` for the code as it is), and so does one read
from nothing (`C49_not_covering`) -/
example : (evalProg (GqProg.insert (.drained .new (.insert .new {1} (Demo.iv 3 5))) {2} (Demo.iv 4 9) :
      GqProg Demo.U8 (Interval Demo.U8) Nat)).bind (fun g => g.identifiersAtPoint (Demo.u8 4)) = .ok {2} ∧
    (evalProg (GqProg.insert (.deserialized []) {2} (Demo.iv 4 9) :
      GqProg Demo.U8 (Interval Demo.U8) Nat)).bind (fun g => g.identifiersAtPoint (Demo.u8 4)) = .ok {2} := by decide

end Repair
end Nodit
