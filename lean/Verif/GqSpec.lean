import Verif.Serde
import Verif.Spec
/-!
# Programs with several `Gqdit`s, some of them deserialised or drained by `append`

The reference semantics gives, for each point, `none` if no stored interval contains it (nothing can ever be stored
there) and otherwise the identifiers there.
-/
namespace Nodit.Spec
variable {I K D : Type} [PointType I] [IntervalType I K]

/-- How a `Gqdit` came about. -/
inductive GqProg (I K D : Type) where
  | new
  /-- read from a sequence of these elements -/
  | deserialized (l : List (K × Finset D))
  | insert (g : GqProg I K D) (ids : Finset D) (k : K)
  | cutWithIdentifiers (g : GqProg I K D) (ids : Finset D) (q : Interval I)
  | cutAllIdentifiers (g : GqProg I K D) (q : Interval I)
  /-- `g` after `g.append(&mut other)` -/
  | append (g other : GqProg I K D)
  /-- `other` after `g.append(&mut other)` -/
  | drained (g other : GqProg I K D)

/-- every interval argument contains a point, and the elements deserialised are valid and disjoint -/
def GqProg.Fine : GqProg I K D → Prop
  | .new => True
  | .deserialized l => (∀ e ∈ l, Valid e.1) ∧ l.Pairwise (fun a b => ¬ Overlap a.1 b.1)
  | .insert g _ k => g.Fine ∧ Valid k
  | .cutWithIdentifiers g _ q => g.Fine ∧ Valid q
  | .cutAllIdentifiers g q => g.Fine ∧ Valid q
  | .append g other => g.Fine ∧ other.Fine
  | .drained g other => g.Fine ∧ other.Fine

open Classical in
/-- what the `Gqdit` holds at a point: `none` outside of all its intervals -/
noncomputable def GqProg.contents [DecidableEq D] : GqProg I K D → I → Option (Finset D)
  | .new, _ => some ∅
  | .deserialized l, p => (l.find? (fun e => Mem p e.1)).map Prod.snd
  | .insert g ids k, p => if Mem p k then (g.contents p).map (fun s => s ∪ ids) else g.contents p
  | .cutWithIdentifiers g ids q, p => if Mem p q then (g.contents p).map (fun s => s \ ids) else g.contents p
  | .cutAllIdentifiers g q, p => if Mem p q then (g.contents p).map (fun _ => ∅) else g.contents p
  | .append g other, p => (g.contents p).map (fun s => s ∪ (other.contents p).getD ∅)
  | .drained _ _, _ => none

/-- the point is in some stored interval, with no identifier other than `d` -/
def FreeFor (f : I → Option (Finset D)) (d : D) (x : I) : Prop := ∃ s, f x = some s ∧ ∀ i ∈ s, i = d

/-- the point is in some stored interval, with an identifier other than `d` -/
def TakenFor (f : I → Option (Finset D)) (d : D) (x : I) : Prop := ∃ s, f x = some s ∧ ∃ i ∈ s, i ≠ d

/-- The points `gaps_with_identifier(d, q)` gives, for contents with holes (points in no stored interval):
the free points of `q`; the points between two free points that are at or below the start of `q`, if there is no taken
point from the lower one up to the start of `q`; and the same above `q`. Holes are never taken, so they are passed over. -/
def GapWith {Q : Type} [IntervalType I Q] (f : I → Option (Finset D)) (d : D) (q : Q) (p : I) : Prop :=
  (Mem p q ∧ FreeFor f d p) ∨
  (∃ x z, FreeFor f d x ∧ FreeFor f d z ∧ x ≤ p ∧ p ≤ z ∧ (∀ y, Mem y q → z ≤ y) ∧
    ∀ b, TakenFor f d b → x ≤ b → ∃ y, Mem y q ∧ y < b) ∨
  (∃ x z, FreeFor f d x ∧ FreeFor f d z ∧ z ≤ p ∧ p ≤ x ∧ (∀ y, Mem y q → y ≤ z) ∧
    ∀ b, TakenFor f d b → b ≤ x → ∃ y, Mem y q ∧ b < y)

end Nodit.Spec

namespace Nodit.Gqdit
open Spec
variable {I K D : Type} [PointType I] [IntervalType I K] [DecidableEq D]

/-- Running a program with the modelled functions. A deserialisation that returns `Err` leaves no `Gqdit`; this is marked
with `.explicit`. -/
def evalProg : GqProg I K D → Res (Gqdit K D)
  | .new => new
  | .deserialized l => do
    match ← deserialize (E := Empty) (l.map .ok) with
    | .ok g => pure g
    | .error _ => .error .explicit
  | .insert g ids k => do (← evalProg g).insert ids k
  | .cutWithIdentifiers g ids q => do (← evalProg g).cutWithIdentifiers ids q
  | .cutAllIdentifiers g q => do (← evalProg g).cutAllIdentifiers q
  | .append g other => do
    let g ← evalProg g
    let other ← evalProg other
    let (g, _) ← g.append other
    pure g
  | .drained g other => do
    let g ← evalProg g
    let other ← evalProg other
    let (_, other) ← g.append other
    pure other

end Nodit.Gqdit
