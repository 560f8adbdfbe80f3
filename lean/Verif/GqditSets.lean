import Verif.Gqdit
import Verif.Serde
import Verif.GqSpec
import Verif.Equality
import Mathlib.Order.Basic
/-!
# `Gqdit` with the identifier sets as ordered sequences

`Verif/Gqdit.lean` takes a `BTreeSet<D>` to be a `Finset D`. That leaves two things out: `Eq` and `Ord` of an identifier type
(`IdType: Eq + Ord + Copy`, `/repo/src/gqdit/mod.rs:16-17`) may call two identifiers equal that can be told apart (a user type
comparing only one of its fields), and a `BTreeSet` gives its elements in ascending order.
Here the functions of `/repo/src/gqdit/mod.rs` are written over an interface with the set operations they use, and the
`BTreeSet` of the standard library is modelled as the list of its elements, ascending in the identifiers' own `Ord`.
-/
namespace Nodit

/-- What `/repo/src/gqdit/mod.rs` uses of `BTreeSet<D>`. -/
class IdSet (S : Type) (D : outParam Type) where
  /-- `BTreeSet::new`, lines 454, 555, and what `clear()` leaves, line 329 -/
  empty : S
  /-- `is_empty`, lines 130, 268, 370, 502, 506 -/
  isEmpty : S → Bool
  /-- `len`, line 503 -/
  len : S → Nat
  /-- `contains`, lines 278, 504 -/
  contains : S → D → Bool
  /-- `s.extend(t.clone())`, line 391 -/
  extend : S → S → S
  /-- `s.retain(|i| !t.contains(i))`, line 278 -/
  retainNotIn : S → S → S
  /-- `==` (inside `insert_merge_touching_if_values_equal` and `eq`) -/
  eq : S → S → Bool

/-- `==` of identifier sets, `/repo/src/nodit/map.rs:939, 949` -/
instance {S D : Type} [IdSet S D] : BEq S := ⟨IdSet.eq⟩

/-- `alloc::collections::BTreeSet<D>` (used throughout `/repo/src/gqdit/mod.rs`): its elements in ascending order. -/
structure BSet (D : Type) [Ord D] where
  elems : List D
  ascending : elems.Pairwise (fun a b => compare a b = .lt)

namespace BSet
variable {D : Type} [Ord D]

/-- `BTreeSet::insert` on the ascending elements: an element already there that compares equal stays, the new one is dropped.
Standard library, no lines of `/repo`. -/
def insertInto (d : D) : List D → List D
  | [] => [d]
  | x :: l =>
    match compare d x with
    | .lt => d :: x :: l
    | .eq => x :: l
    | .gt => x :: insertInto d l

theorem mem_insertInto {d y : D} {l : List D} (h : y ∈ insertInto d l) : y = d ∨ y ∈ l := by
  induction l with
  | nil => simpa [insertInto] using h
  | cons x l ih =>
    simp only [insertInto] at h
    cases hc : compare d x <;> simp only [hc, List.mem_cons] at h ⊢ <;> grind

variable [Std.TransOrd D]

theorem insertInto_ascending (d : D) {l : List D} (h : l.Pairwise (fun a b => compare a b = .lt)) :
    (insertInto d l).Pairwise (fun a b => compare a b = .lt) := by
  induction l with
  | nil => simp [insertInto]
  | cons x l ih =>
    simp only [List.pairwise_cons] at h
    simp only [insertInto]
    cases hc : compare d x with
    | lt =>
      simp only [List.pairwise_cons, List.mem_cons]
      refine ⟨?_, h.1, h.2⟩
      rintro y (rfl | hy)
      · exact hc
      · exact Std.TransCmp.lt_trans hc (h.1 y hy)
    | eq => simpa using h
    | gt =>
      simp only [List.pairwise_cons]
      refine ⟨fun y hy => ?_, ih h.2⟩
      rcases mem_insertInto hy with rfl | hy
      · exact Std.OrientedCmp.lt_of_gt hc
      · exact h.1 y hy

/-- `BTreeSet::insert`. Used by `extend`, `/repo/src/gqdit/mod.rs:391`. -/
def insert (s : BSet D) (d : D) : BSet D := ⟨insertInto d s.elems, insertInto_ascending d s.ascending⟩

/-- The set operations of the standard library. `extend` inserts the given elements one after another; `==` compares the lengths
and then the elements pairwise. -/
instance : IdSet (BSet D) D where
  empty := ⟨[], by simp⟩
  isEmpty s := s.elems.isEmpty
  len s := s.elems.length
  contains s d := s.elems.any (fun x => compare d x == .eq)
  extend s t := t.elems.foldl insert s
  retainNotIn s t := ⟨s.elems.filter (fun i => !t.elems.any (fun x => compare i x == .eq)), s.ascending.filter _⟩
  eq s t := s.elems.length == t.elems.length && (s.elems.zip t.elems).all (fun p => compare p.1 p.2 == .eq)

/-- Collecting identifiers into a `BTreeSet`, e.g. `BTreeSet::from([...])`, as callers do for the arguments (the examples at
`/repo/src/gqdit/mod.rs:57-59`). -/
def ofList (l : List D) : BSet D := l.foldl insert ⟨[], by simp⟩
end BSet

/-- `struct Gqdit<I, K, D>`, `/repo/src/gqdit/mod.rs:66-69`, with the representation `S` of `BTreeSet<D>`. -/
structure SGqdit (K S : Type) where
  inner : NoditMap K S

namespace SGqdit
variable {I K Q S D : Type} [PointType I] [IntervalType I K] [IntervalType I Q] [IdSet S D]
open IdSet

/-- `default`, `/repo/src/gqdit/mod.rs:548-559`, and `new`, `/repo/src/gqdit/mod.rs:85-87` -/
def new : Res (SGqdit K S) := do
  let full ← uu
  match ← (NoditMap.new : NoditMap K S).insertStrict (ofInterval full) empty with
  | (map, .ok ()) => pure ⟨map⟩
  | (_, .error _) => .error .explicit

/-- `valid_identifier` with `Some(identifier)` (its only use), `/repo/src/gqdit/mod.rs:493-508` -/
def validIdentifier (identifier : D) (others : S) : Bool :=
  isEmpty others || (len others == 1 && contains others identifier)

/-- `gaps_no_identifier`, `/repo/src/gqdit/mod.rs:121-138` -/
def gapsNoIdentifier (g : SGqdit K S) (q : Q) : Res (List K) := do
  invalidIntervalPanic q
  let o ← g.inner.overlapping q
  pure ((o.filter (fun e => isEmpty e.2)).map Prod.fst)

/-- `expand_gaps_at_point_right`, `/repo/src/gqdit/mod.rs:457-471` -/
def expandGapsAtPointRight (g : SGqdit K S) (identifier : D) (point : I) : Res (Option K) := do
  let q ← iu point
  let overlappingRight ← g.inner.overlapping q
  let run := (overlappingRight.takeWhile (fun e => validIdentifier identifier e.2)).map Prod.fst
  let r ← coalesce (fun x y => do pure (.ok (ofInterval (← mergeOrdered x y) : K))) run
  pure r.head?

/-- `expand_gaps_at_point_left`, `/repo/src/gqdit/mod.rs:472-490` -/
def expandGapsAtPointLeft (g : SGqdit K S) (identifier : D) (point : I) : Res (Option K) := do
  let q ← ui point
  let overlappingLeft ← g.inner.overlapping q
  let run := (overlappingLeft.reverse.takeWhile (fun e => validIdentifier identifier e.2)).map Prod.fst
  let r ← coalesce (fun x y => do pure (.ok (ofInterval (← mergeOrdered y x) : K))) run
  pure r.head?

/-- `gaps_with_identifier`, `/repo/src/gqdit/mod.rs:172-226` -/
def gapsWithIdentifier (g : SGqdit K S) (identifier : D) (q : Q) : Res (List K) := do
  invalidIntervalPanic q
  let o ← g.inner.overlapping q
  let validGaps := (o.filter (fun e => validIdentifier identifier e.2)).map Prod.fst
  let nonEndGaps := validGaps.filter (fun gap =>
    !InclusiveInterval.containsPoint gap (start q) && !InclusiveInterval.containsPoint gap (stop q))
  let leftGap ← g.expandGapsAtPointLeft identifier (start q)
  let rightGap ← g.expandGapsAtPointRight identifier (stop q)
  let (leftGap, rightGap) ← match leftGap, rightGap with
    | some left, some right =>
      if overlapsOrdered left right then do
        pure (some (ofInterval (← mergeOrdered left right) : K), none)
      else pure (some left, some right)
    | l, r => pure (l, r)
  coalesce
    (fun x y => do
      if ← touchesOrdered x y then pure (.ok (ofInterval (← mergeOrdered x y) : K)) else pure (.error (x, y)))
    (leftGap.toList ++ nonEndGaps ++ rightGap.toList)

/-- The `for` loop of `insert`, `cut_with_identifiers` and `cut_all_identifiers`: each piece that was cut out is
put back with its identifiers changed by `f`; `/repo/src/gqdit/mod.rs:272-286, 323-337, 389-402`. -/
def putBack (f : S → S) (m : NoditMap K S) : List (K × S) → Res (NoditMap K S)
  | [] => pure m
  | (k, ids) :: rest => do
    match ← m.insertMergeTouchingIfValuesEqual k (f ids) with
    | (m, .ok _) => putBack f m rest
    | (_, .error _) => .error .explicit

/-- `cut_with_identifiers`, `/repo/src/gqdit/mod.rs:259-287` -/
def cutWithIdentifiers (g : SGqdit K S) (identifiers : S) (q : Q) : Res (SGqdit K S) := do
  invalidIntervalPanic q
  if isEmpty identifiers then pure g
  else
    let (m, cut) ← g.inner.cut q
    let m ← putBack (fun ids => retainNotIn ids identifiers) m cut
    pure ⟨m⟩

/-- `cut_all_identifiers`, `/repo/src/gqdit/mod.rs:317-338` -/
def cutAllIdentifiers (g : SGqdit K S) (q : Q) : Res (SGqdit K S) := do
  invalidIntervalPanic q
  let (m, cut) ← g.inner.cut q
  let m ← putBack (fun _ => empty) m cut
  pure ⟨m⟩

/-- `insert`, `/repo/src/gqdit/mod.rs:367-403` -/
def insert (g : SGqdit K S) (identifiers : S) (interval : K) : Res (SGqdit K S) := do
  invalidIntervalPanic interval
  if isEmpty identifiers then pure g
  else
    let (m, cut) ← g.inner.cut interval
    let m ← putBack (fun ids => extend ids identifiers) m cut
    pure ⟨m⟩

/-- The loop of `append`, `/repo/src/gqdit/mod.rs:425-427` -/
def insertAll (g : SGqdit K S) : List (K × S) → Res (SGqdit K S)
  | [] => pure g
  | (k, ids) :: rest => do
    let g ← g.insert ids k
    g.insertAll rest

/-- `append`, `/repo/src/gqdit/mod.rs:424-428`: `self` and `other` afterwards. -/
def append (g other : SGqdit K S) : Res (SGqdit K S × SGqdit K S) := do
  let full : Interval I ← uu
  let (otherInner, removed) ← other.inner.removeOverlapping full
  let g ← g.insertAll removed
  pure (g, ⟨otherInner⟩)

/-- `identifiers_at_point`, `/repo/src/gqdit/mod.rs:450-455` -/
def identifiersAtPoint (g : SGqdit K S) (point : I) : Res S := do
  pure ((← g.inner.getAtPoint point).getD empty)

/-- `deserialize`, `/repo/src/gqdit/mod.rs:584-597`: that of a `NoditMap` -/
def deserialize {E : Type} (input : List (Except E (K × S))) : Res (Except (DeError E) (SGqdit K S)) := do
  match ← NoditMap.deserialize input with
  | .ok m => pure (.ok ⟨m⟩)
  | .error e => pure (.error e)

/-- `PartialEq::eq`, `/repo/src/gqdit/mod.rs:537-546`: that of the inner maps -/
def eq [BEq K] (g h : SGqdit K S) : Bool := g.inner.equal h.inner
end SGqdit

namespace Spec
/-- How a `Gqdit` came about; `GqProg` of `Verif/GqSpec.lean` with the identifier sets given as `S`.
Client code and bookkeeping, models no lines of `/repo`; the calls are those of `gqdit/mod.rs`. -/
inductive SGqProg (I K S : Type) where
  | new
  /-- read from a sequence of these elements -/
  | deserialized (l : List (K × S))
  | insert (g : SGqProg I K S) (ids : S) (k : K)
  | cutWithIdentifiers (g : SGqProg I K S) (ids : S) (q : Interval I)
  | cutAllIdentifiers (g : SGqProg I K S) (q : Interval I)
  /-- `g` after `g.append(&mut other)` -/
  | append (g other : SGqProg I K S)
  /-- `other` after `g.append(&mut other)` -/
  | drained (g other : SGqProg I K S)

/-- the same program with the sets replaced.
Client code and bookkeeping, models no lines of `/repo`; the calls are those of `gqdit/mod.rs`. -/
def SGqProg.map {I K S S' : Type} (ψ : S → S') : SGqProg I K S → SGqProg I K S'
  | .new => .new
  | .deserialized l => .deserialized (l.map (Prod.map id ψ))
  | .insert g ids k => .insert (g.map ψ) (ψ ids) k
  | .cutWithIdentifiers g ids q => .cutWithIdentifiers (g.map ψ) (ψ ids) q
  | .cutAllIdentifiers g q => .cutAllIdentifiers (g.map ψ) q
  | .append g o => .append (g.map ψ) (o.map ψ)
  | .drained g o => .drained (g.map ψ) (o.map ψ)

/-- the same program for the reference semantics, with the sets read as finite sets.
Client code and bookkeeping, models no lines of `/repo`; the calls are those of `gqdit/mod.rs`. -/
def SGqProg.toProg {I K S D : Type} (ψ : S → Finset D) : SGqProg I K S → GqProg I K D
  | .new => .new
  | .deserialized l => .deserialized (l.map (Prod.map id ψ))
  | .insert g ids k => .insert (g.toProg ψ) (ψ ids) k
  | .cutWithIdentifiers g ids q => .cutWithIdentifiers (g.toProg ψ) (ψ ids) q
  | .cutAllIdentifiers g q => .cutAllIdentifiers (g.toProg ψ) q
  | .append g o => .append (g.toProg ψ) (o.toProg ψ)
  | .drained g o => .drained (g.toProg ψ) (o.toProg ψ)

/-- the identifier sets written in the program (those of `cut_with_identifiers` excepted: they are only compared with).
Client code and bookkeeping, models no lines of `/repo`; the calls are those of `gqdit/mod.rs`. -/
def SGqProg.given {I K S : Type} : SGqProg I K S → List S
  | .new => []
  | .deserialized l => l.map Prod.snd
  | .insert g ids _ => ids :: g.given
  | .cutWithIdentifiers g _ _ => g.given
  | .cutAllIdentifiers g _ => g.given
  | .append g o => g.given ++ o.given
  | .drained g o => g.given ++ o.given
end Spec

namespace SGqdit
open Spec
variable {I K S D : Type} [PointType I] [IntervalType I K] [IdSet S D]

/-- Running a program with the functions above. A deserialisation that returns `Err` leaves no `Gqdit`; this is marked
with `.explicit`. Client code and bookkeeping, models no lines of `/repo`; the calls are those of `gqdit/mod.rs`. -/
def evalProg : SGqProg I K S → Res (SGqdit K S)
  | .new => new
  | .deserialized l => do
    match ← deserialize (E := Empty) (l.map .ok) with
    | .ok g => pure g
    | .error _ => .error .explicit
  | .insert g ids k => do (← evalProg g).insert ids k
  | .cutWithIdentifiers g ids q => do (← evalProg g).cutWithIdentifiers ids q
  | .cutAllIdentifiers g q => do (← evalProg g).cutAllIdentifiers q
  | .append g other => do
    let g ← evalProg g
    let other ← evalProg other
    let (g, _) ← g.append other
    pure g
  | .drained g other => do
    let g ← evalProg g
    let other ← evalProg other
    let (_, other) ← g.append other
    pure other
end SGqdit
end Nodit
