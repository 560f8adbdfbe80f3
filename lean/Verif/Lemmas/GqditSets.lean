import Verif.GqditSets
import Verif.Props.Parametric
/-!
# Maps between representations of identifier sets
-/
set_option linter.unusedSectionVars false
namespace Nodit
open Spec PointType InclusiveInterval

/-- `ψ` (with `τ` on single identifiers) respects everything `Gqdit` does with identifier sets. -/
structure IdSet.Hom {S S' D D' : Type} [IdSet S D] [IdSet S' D'] (ψ : S → S') (τ : D → D') : Prop where
  empty : ψ (IdSet.empty : S) = IdSet.empty
  isEmpty : ∀ s, IdSet.isEmpty (ψ s) = IdSet.isEmpty s
  len : ∀ s, IdSet.len (ψ s) = IdSet.len s
  contains : ∀ s d, IdSet.contains (ψ s) (τ d) = IdSet.contains s d
  extend : ∀ s t, ψ (IdSet.extend s t) = IdSet.extend (ψ s) (ψ t)
  retainNotIn : ∀ s t, ψ (IdSet.retainNotIn s t) = IdSet.retainNotIn (ψ s) (ψ t)
  eq : ∀ s t, IdSet.eq (ψ s) (ψ t) = IdSet.eq s t

namespace SGqdit
variable {I K Q S S' D D' : Type} [PointType I] [IntervalType I K] [IntervalType I Q] [IdSet S D] [IdSet S' D']
variable {ψ : S → S'} {τ : D → D'}

/-- the `Gqdit` with the identifier sets replaced -/
def mapSets (ψ : S → S') (g : SGqdit K S) : SGqdit K S' := ⟨g.inner.mapEntries id ψ⟩

variable (hψ : IdSet.Hom ψ τ)
include hψ

theorem beq_map (a b : S) : (ψ a == ψ b) = (a == b) := hψ.eq a b

theorem validIdentifier_map (d : D) (s : S) : validIdentifier (τ d) (ψ s) = validIdentifier d s := by
  simp [validIdentifier, hψ.isEmpty, hψ.len, hψ.contains]

theorem gapsNoIdentifier_map (g : SGqdit K S) (q : Q) : (g.mapSets ψ).gapsNoIdentifier q = g.gapsNoIdentifier q := by
  simp only [gapsNoIdentifier, mapSets, NoditMap.overlapping_map keeps_id, bind, Except.bind, pure, Except.pure]
  cases invalidIntervalPanic q with
  | error _ => rfl
  | ok _ =>
    simp only
    cases g.inner.overlapping q with
    | error _ => rfl
    | ok l => simp [Except.map, List.filter_map, Function.comp_def, hψ.isEmpty]

theorem expandRight_map (g : SGqdit K S) (d : D) (p : I) :
    (g.mapSets ψ).expandGapsAtPointRight (τ d) p = g.expandGapsAtPointRight d p := by
  simp only [expandGapsAtPointRight, mapSets, NoditMap.overlapping_map keeps_id]
  cases iu p with
  | error _ => rfl
  | ok q =>
    simp only [bind, Except.bind]
    cases g.inner.overlapping q with
    | error _ => rfl
    | ok l =>
      simp only [Except.map]
      rw [List.takeWhile_map]; simp [Function.comp_def, validIdentifier_map hψ]

theorem expandLeft_map (g : SGqdit K S) (d : D) (p : I) :
    (g.mapSets ψ).expandGapsAtPointLeft (τ d) p = g.expandGapsAtPointLeft d p := by
  simp only [expandGapsAtPointLeft, mapSets, NoditMap.overlapping_map keeps_id]
  cases ui p with
  | error _ => rfl
  | ok q =>
    simp only [bind, Except.bind]
    cases g.inner.overlapping q with
    | error _ => rfl
    | ok l =>
      simp only [Except.map]
      rw [← List.map_reverse, List.takeWhile_map]; simp [Function.comp_def, validIdentifier_map hψ]

theorem gapsWithIdentifier_map (g : SGqdit K S) (d : D) (q : Q) :
    (g.mapSets ψ).gapsWithIdentifier (τ d) q = g.gapsWithIdentifier d q := by
  simp only [gapsWithIdentifier, expandLeft_map hψ, expandRight_map hψ]
  have e : ∀ (l : List (K × S)), (((l.map (Prod.map id ψ)).filter (fun e => validIdentifier (τ d) e.2)).map Prod.fst) =
      ((l.filter (fun e => validIdentifier d e.2)).map Prod.fst) := by
    intro l; simp [List.filter_map, Function.comp_def, validIdentifier_map hψ]
  cases invalidIntervalPanic q with
  | error _ => rfl
  | ok _ =>
    simp only [mapSets, NoditMap.overlapping_map keeps_id]
    cases g.inner.overlapping q with
    | error _ => rfl
    | ok l => simp only [Except.map, bind, Except.bind, e]

theorem putBack_map {f : S → S} {f' : S' → S'} (hf : ∀ s, f' (ψ s) = ψ (f s)) (l : List (K × S)) (m : NoditMap K S) :
    putBack f' (m.mapEntries id ψ) (l.map (Prod.map id ψ)) = (putBack f m l).map (NoditMap.mapEntries id ψ) := by
  induction l generalizing m with
  | nil => rfl
  | cons e l ih =>
    obtain ⟨k, ids⟩ := e
    have h := NoditMap.insertMergeTouchingIfValuesEqual_map keeps_id m (P := fun _ => True) (Or.inl fun _ => trivial) (beq_map hψ) k (f ids)
    simp only [id] at h
    simp only [List.map_cons, Prod.map_apply, id, putBack, hf, h, bind, Except.bind]
    cases m.insertMergeTouchingIfValuesEqual k (f ids) with
    | error _ => rfl
    | ok r =>
      obtain ⟨m1, _ | _⟩ := r
      · rfl
      · exact ih m1

theorem cutWithIdentifiers_map (g : SGqdit K S) (ids : S) (q : Q) :
    (g.mapSets ψ).cutWithIdentifiers (ψ ids) q = (g.cutWithIdentifiers ids q).map (mapSets ψ) := by
  have hc : (g.mapSets ψ).inner.cut q = _ := NoditMap.cut_map (ψ := ψ) keeps_id g.inner (fun _ _ => trivial) q
  simp only [cutWithIdentifiers, hψ.isEmpty, hc, bind, Except.bind, pure, Except.pure]
  cases invalidIntervalPanic q with
  | error _ => rfl
  | ok _ =>
    simp only
    split_ifs
    · rfl
    · cases g.inner.cut q with
      | error _ => rfl
      | ok r =>
        simp only [Except.map, Prod.map]
        rw [putBack_map hψ (f := fun s => IdSet.retainNotIn s ids) (fun s => (hψ.retainNotIn s ids).symm)]
        cases putBack (fun s => IdSet.retainNotIn s ids) r.1 r.2 <;> rfl

theorem cutAllIdentifiers_map (g : SGqdit K S) (q : Q) :
    (g.mapSets ψ).cutAllIdentifiers q = (g.cutAllIdentifiers q).map (mapSets ψ) := by
  have hc : (g.mapSets ψ).inner.cut q = _ := NoditMap.cut_map (ψ := ψ) keeps_id g.inner (fun _ _ => trivial) q
  simp only [cutAllIdentifiers, hc, bind, Except.bind, pure, Except.pure]
  cases invalidIntervalPanic q with
  | error _ => rfl
  | ok _ =>
    simp only
    cases g.inner.cut q with
    | error _ => rfl
    | ok r =>
      simp only [Except.map, Prod.map]
      rw [putBack_map hψ (f := fun _ => IdSet.empty) (fun s => hψ.empty.symm)]
      cases putBack (fun _ => (IdSet.empty : S)) r.1 r.2 <;> rfl

theorem insert_map (g : SGqdit K S) (ids : S) (k : K) :
    (g.mapSets ψ).insert (ψ ids) k = (g.insert ids k).map (mapSets ψ) := by
  have hc : (g.mapSets ψ).inner.cut k = _ := NoditMap.cut_map (ψ := ψ) keeps_id g.inner (fun _ _ => trivial) k
  simp only [insert, hψ.isEmpty, hc, bind, Except.bind, pure, Except.pure]
  cases invalidIntervalPanic k with
  | error _ => rfl
  | ok _ =>
    simp only
    split_ifs
    · rfl
    · cases g.inner.cut k with
      | error _ => rfl
      | ok r =>
        simp only [Except.map, Prod.map]
        rw [putBack_map hψ (f := fun s => IdSet.extend s ids) (fun s => (hψ.extend s ids).symm)]
        cases putBack (fun s => IdSet.extend s ids) r.1 r.2 <;> rfl

theorem insertAll_map (l : List (K × S)) (g : SGqdit K S) :
    (g.mapSets ψ).insertAll (l.map (Prod.map id ψ)) = (g.insertAll l).map (mapSets ψ) := by
  induction l generalizing g with
  | nil => rfl
  | cons e l ih =>
    obtain ⟨k, ids⟩ := e
    simp only [List.map_cons, Prod.map_apply, id, insertAll, insert_map hψ, bind, Except.bind]
    cases g.insert ids k with
    | error _ => rfl
    | ok g1 => exact ih g1

theorem append_map (g o : SGqdit K S) : (g.mapSets ψ).append (o.mapSets ψ) =
    (g.append o).map (Prod.map (mapSets ψ) (mapSets ψ)) := by
  unfold append
  simp only [bind, Except.bind, pure, Except.pure]
  cases (uu : Res (Interval I)) with
  | error _ => rfl
  | ok full =>
    have h : (o.mapSets ψ).inner.removeOverlapping full = _ := NoditMap.removeOverlapping_map keeps_id o.inner full
    simp only [h]
    cases o.inner.removeOverlapping full with
    | error _ => rfl
    | ok r =>
      simp only [Except.map, Prod.map, insertAll_map hψ]
      cases g.insertAll r.2 <;> rfl

theorem identifiersAtPoint_map (g : SGqdit K S) (p : I) :
    (g.mapSets ψ).identifiersAtPoint p = (g.identifiersAtPoint p).map ψ := by
  simp only [identifiersAtPoint, mapSets, NoditMap.getAtPoint_map keeps_id, bind, Except.bind, pure, Except.pure]
  rcases g.inner.getAtPoint p with _ | (_ | _)
  · rfl
  · simp [Except.map, hψ.empty]
  · rfl

theorem new_map : (new : Res (SGqdit K S')) = (new : Res (SGqdit K S)).map (mapSets ψ) := by
  unfold new
  simp only [bind, Except.bind, pure, Except.pure]
  cases (uu : Res (Interval I)) with
  | error _ => rfl
  | ok full =>
    have h := NoditMap.insertStrict_map (ψ := ψ) keeps_id (NoditMap.new : NoditMap K S) (ofInterval full) IdSet.empty
    have e : (NoditMap.new : NoditMap K S).mapEntries id ψ = NoditMap.new := rfl
    rw [e, hψ.empty] at h
    simp only [id] at h
    simp only [h]
    cases (NoditMap.new : NoditMap K S).insertStrict (ofInterval full) IdSet.empty with
    | error _ => rfl
    | ok r => obtain ⟨m, _ | _⟩ := r <;> rfl

omit hψ in
theorem visitSeqFrom_map (ψ : S → S') (l : List (K × S)) (m : NoditMap K S) :
    NoditMap.visitSeqFrom (E := Empty) (m.mapEntries id ψ) ((l.map (Prod.map id ψ)).map .ok) =
      (NoditMap.visitSeqFrom (E := Empty) m (l.map .ok)).map (Except.map (NoditMap.mapEntries id ψ)) := by
  induction l generalizing m with
  | nil => rfl
  | cons e l ih =>
    obtain ⟨k, s⟩ := e
    have h := NoditMap.insertStrict_map (ψ := ψ) keeps_id m k s
    simp only [id] at h
    simp only [List.map_cons, Prod.map_apply, id, NoditMap.visitSeqFrom, h, bind, Except.bind]
    cases m.insertStrict k s with
    | error _ => rfl
    | ok r =>
      obtain ⟨m1, _ | _⟩ := r
      · rfl
      · exact ih m1

omit hψ in
theorem deserialize_map (ψ : S → S') (l : List (K × S)) :
    deserialize (E := Empty) ((l.map (Prod.map id ψ)).map .ok) =
      (deserialize (E := Empty) (l.map .ok)).map (Except.map (mapSets ψ)) := by
  have h := visitSeqFrom_map ψ l (NoditMap.new : NoditMap K S)
  have e : (NoditMap.new : NoditMap K S).mapEntries id ψ = NoditMap.new := rfl
  rw [e] at h
  simp only [deserialize, NoditMap.deserialize, h, bind, Except.bind]
  rcases NoditMap.visitSeqFrom (E := Empty) (NoditMap.new : NoditMap K S) (l.map .ok) with _ | (_ | _) <;> rfl

theorem evalProg_map (h : SGqProg I K S) : evalProg (h.map ψ) = (evalProg h).map (mapSets ψ) := by
  induction h with
  | new => exact new_map hψ
  | deserialized l =>
    simp only [SGqProg.map, evalProg, deserialize_map ψ, bind, Except.bind]
    rcases deserialize (E := Empty) (l.map .ok) with _ | (_ | _) <;> rfl
  | insert g ids k ih =>
    simp only [SGqProg.map, evalProg, ih, bind, Except.bind]
    cases evalProg g with
    | error _ => rfl
    | ok g => exact insert_map hψ g ids k
  | cutWithIdentifiers g ids q ih =>
    simp only [SGqProg.map, evalProg, ih, bind, Except.bind]
    cases evalProg g with
    | error _ => rfl
    | ok g => exact cutWithIdentifiers_map hψ g ids q
  | cutAllIdentifiers g q ih =>
    simp only [SGqProg.map, evalProg, ih, bind, Except.bind]
    cases evalProg g with
    | error _ => rfl
    | ok g => exact cutAllIdentifiers_map hψ g q
  | append g o ih1 ih2 =>
    simp only [SGqProg.map, evalProg, ih1, ih2, bind, Except.bind]
    cases evalProg g with
    | error _ => rfl
    | ok g =>
      cases evalProg o with
      | error _ => rfl
      | ok o =>
        simp only [Except.map, append_map hψ]
        cases g.append o <;> rfl
  | drained g o ih1 ih2 =>
    simp only [SGqProg.map, evalProg, ih1, ih2, bind, Except.bind]
    cases evalProg g with
    | error _ => rfl
    | ok g =>
      cases evalProg o with
      | error _ => rfl
      | ok o =>
        simp only [Except.map, append_map hψ]
        cases g.append o <;> rfl

theorem eq_map [BEq K] (g h : SGqdit K S) : (g.mapSets ψ).eq (h.mapSets ψ) = g.eq h := by
  unfold eq NoditMap.equal entriesEqual
  simp only [mapSets, NoditMap.mapEntries, List.length_map, List.zip_map, List.all_map]
  congr 1
  congr 1
  funext p
  simp [Prod.map, beq_map hψ]
end SGqdit

/-! ## Finite sets as identifier sets: the model of `Verif/Gqdit.lean` -/
section
variable {D : Type} [DecidableEq D]

/-- finite sets -/
instance finsetIdSet : IdSet (Finset D) D where
  empty := ∅
  isEmpty s := decide (s = ∅)
  len s := s.card
  contains s d := decide (d ∈ s)
  extend s t := s ∪ t
  retainNotIn s t := s.filter (fun i => i ∉ t)
  eq s t := decide (s = t)

namespace SGqdit
variable {I K Q : Type} [PointType I] [IntervalType I K] [IntervalType I Q]

/-- the `Gqdit` of `Verif/Gqdit.lean` -/
def plain (g : SGqdit K (Finset D)) : Gqdit K D := ⟨g.inner⟩

@[simp] theorem plain_inner (g : SGqdit K (Finset D)) : g.plain.inner = g.inner := rfl

theorem beq_plain : (instBEqOfIdSet : BEq (Finset D)) = instBEqOfDecidableEq := by
  congr

theorem validIdentifier_plain (d : D) (s : Finset D) : validIdentifier d s = Nodit.validIdentifier d s := rfl

theorem gapsNoIdentifier_plain (g : SGqdit K (Finset D)) (q : Q) : g.gapsNoIdentifier q = g.plain.gapsNoIdentifier q := rfl
theorem gapsWithIdentifier_plain (g : SGqdit K (Finset D)) (d : D) (q : Q) :
    g.gapsWithIdentifier d q = g.plain.gapsWithIdentifier d q := rfl
theorem identifiersAtPoint_plain (g : SGqdit K (Finset D)) (p : I) : g.identifiersAtPoint p = g.plain.identifiersAtPoint p := rfl

theorem putBack_plain (f : Finset D → Finset D) (l : List (K × Finset D)) (m : NoditMap K (Finset D)) :
    putBack f m l = Gqdit.putBack f m l := by
  induction l generalizing m with
  | nil => rfl
  | cons e l ih =>
    obtain ⟨k, ids⟩ := e
    simp only [putBack, Gqdit.putBack, ih]
    rw [beq_plain]
    simp only [bind, Except.bind]
    rcases m.insertMergeTouchingIfValuesEqual k (f ids) with _ | ⟨_, _ | _⟩ <;> rfl

theorem insert_plain (g : SGqdit K (Finset D)) (ids : Finset D) (k : K) : (g.insert ids k).map plain = g.plain.insert ids k := by
  simp only [plain_inner, insert, Gqdit.insert, IdSet.isEmpty, IdSet.extend, decide_eq_true_eq, putBack_plain, bind, Except.bind, pure, Except.pure]
  cases invalidIntervalPanic k with
  | error _ => rfl
  | ok _ =>
    simp only
    split_ifs
    · rfl
    · cases g.inner.cut k with
      | error _ => rfl
      | ok r => simp only; cases Gqdit.putBack (fun s => s ∪ ids) r.1 r.2 <;> rfl

theorem cutWithIdentifiers_plain (g : SGqdit K (Finset D)) (ids : Finset D) (q : Q) :
    (g.cutWithIdentifiers ids q).map plain = g.plain.cutWithIdentifiers ids q := by
  simp only [plain_inner, cutWithIdentifiers, Gqdit.cutWithIdentifiers, IdSet.isEmpty, IdSet.retainNotIn, decide_eq_true_eq, putBack_plain, bind,
    Except.bind, pure, Except.pure]
  cases invalidIntervalPanic q with
  | error _ => rfl
  | ok _ =>
    simp only
    split_ifs
    · rfl
    · cases g.inner.cut q with
      | error _ => rfl
      | ok r => simp only; cases Gqdit.putBack (fun s => s.filter (fun i => i ∉ ids)) r.1 r.2 <;> rfl

theorem cutAllIdentifiers_plain (g : SGqdit K (Finset D)) (q : Q) :
    (g.cutAllIdentifiers q).map plain = g.plain.cutAllIdentifiers q := by
  simp only [plain_inner, cutAllIdentifiers, Gqdit.cutAllIdentifiers, IdSet.empty, putBack_plain, bind, Except.bind, pure, Except.pure]
  cases invalidIntervalPanic q with
  | error _ => rfl
  | ok _ =>
    simp only
    cases g.inner.cut q with
    | error _ => rfl
    | ok r => simp only; cases Gqdit.putBack (fun _ => (∅ : Finset D)) r.1 r.2 <;> rfl

theorem insertAll_plain (l : List (K × Finset D)) (g : SGqdit K (Finset D)) : (g.insertAll l).map plain = g.plain.insertAll l := by
  induction l generalizing g with
  | nil => rfl
  | cons e l ih =>
    obtain ⟨k, ids⟩ := e
    simp only [insertAll, Gqdit.insertAll, ← insert_plain, bind, Except.bind]
    cases g.insert ids k with
    | error _ => rfl
    | ok g1 => exact ih g1

theorem append_plain (g o : SGqdit K (Finset D)) : (g.append o).map (Prod.map plain plain) = g.plain.append o.plain := by
  simp only [plain_inner, append, Gqdit.append, ← insertAll_plain, bind, Except.bind, pure, Except.pure]
  cases (uu : Res (Interval I)) with
  | error _ => rfl
  | ok full =>
    simp only
    cases o.inner.removeOverlapping full with
    | error _ => rfl
    | ok r => simp only; cases g.insertAll r.2 <;> rfl

theorem new_plain : (new : Res (SGqdit K (Finset D))).map plain = Gqdit.new := by
  simp only [new, Gqdit.new, bind, Except.bind, pure, Except.pure]
  cases (uu : Res (Interval I)) with
  | error _ => rfl
  | ok full =>
    simp only [show (IdSet.empty : Finset D) = ∅ from rfl]
    cases (NoditMap.new : NoditMap K (Finset D)).insertStrict (ofInterval full) ∅ with
    | error _ => rfl
    | ok r => obtain ⟨m, _ | _⟩ := r <;> rfl

theorem evalProg_plain {S : Type} (ψ : S → Finset D) (h : SGqProg I K S) :
    (evalProg (h.map ψ)).map plain = Gqdit.evalProg (h.toProg ψ) := by
  induction h with
  | new => exact new_plain
  | deserialized l =>
    simp only [SGqProg.map, SGqProg.toProg, evalProg, Gqdit.evalProg, deserialize, Gqdit.deserialize, bind, Except.bind]
    rcases NoditMap.deserialize (E := Empty) ((l.map (Prod.map id ψ)).map .ok) with _ | (_ | _) <;> rfl
  | insert g ids k ih =>
    simp only [SGqProg.map, SGqProg.toProg, evalProg, Gqdit.evalProg, ← ih, bind, Except.bind]
    cases evalProg (g.map ψ) with
    | error _ => rfl
    | ok g => exact insert_plain g _ k
  | cutWithIdentifiers g ids q ih =>
    simp only [SGqProg.map, SGqProg.toProg, evalProg, Gqdit.evalProg, ← ih, bind, Except.bind]
    cases evalProg (g.map ψ) with
    | error _ => rfl
    | ok g => exact cutWithIdentifiers_plain g _ q
  | cutAllIdentifiers g q ih =>
    simp only [SGqProg.map, SGqProg.toProg, evalProg, Gqdit.evalProg, ← ih, bind, Except.bind]
    cases evalProg (g.map ψ) with
    | error _ => rfl
    | ok g => exact cutAllIdentifiers_plain g q
  | append g o ih1 ih2 =>
    simp only [SGqProg.map, SGqProg.toProg, evalProg, Gqdit.evalProg, ← ih1, ← ih2, bind, Except.bind]
    cases evalProg (g.map ψ) with
    | error _ => rfl
    | ok g =>
      cases evalProg (o.map ψ) with
      | error _ => rfl
      | ok o =>
        simp only [Except.map, ← append_plain]
        cases g.append o <;> rfl
  | drained g o ih1 ih2 =>
    simp only [SGqProg.map, SGqProg.toProg, evalProg, Gqdit.evalProg, ← ih1, ← ih2, bind, Except.bind]
    cases evalProg (g.map ψ) with
    | error _ => rfl
    | ok g =>
      cases evalProg (o.map ψ) with
      | error _ => rfl
      | ok o =>
        simp only [Except.map, ← append_plain]
        cases g.append o <;> rfl
end SGqdit
end
end Nodit
