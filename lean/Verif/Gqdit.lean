import Verif.NoditMap
import Mathlib.Data.Finset.Card
/-!
# `Gqdit`

Model of `/repo/src/gqdit/mod.rs`. `BTreeSet<D>` is `Finset D`.
-/
namespace Nodit

/-- `Itertools::coalesce` once the first element is taken: `f` either merges two elements or keeps both.
Used at `/repo/src/gqdit/mod.rs:218, 465, 481`. -/
def coalesceFrom {α : Type} (f : α → α → Res (Except (α × α) α)) (x : α) : List α → Res (List α)
  | [] => pure [x]
  | y :: ys => do
    match ← f x y with
    | .ok z => coalesceFrom f z ys
    | .error (a, b) =>
      let r ← coalesceFrom f b ys
      pure (a :: r)

/-- `Itertools::coalesce`, all elements of the iterator. Used at `/repo/src/gqdit/mod.rs:218, 465, 481`. -/
def coalesce {α : Type} (f : α → α → Res (Except (α × α) α)) : List α → Res (List α)
  | [] => pure []
  | x :: xs => coalesceFrom f x xs

/-- `struct Gqdit<I, K, D>`, `/repo/src/gqdit/mod.rs:66-69` -/
structure Gqdit (K D : Type) where
  inner : NoditMap K (Finset D)
deriving DecidableEq

section
variable {I A B : Type} [PointType I] [IntervalType I A] [IntervalType I B]

/-- `valid_identifier` with `Some(identifier)` (its only use), `/repo/src/gqdit/mod.rs:493-508` -/
def validIdentifier {D : Type} [DecidableEq D] (identifier : D) (others : Finset D) : Bool :=
  others = ∅ || (others.card == 1 && identifier ∈ others)

/-- `merge_ordered`, `/repo/src/gqdit/mod.rs:510-517` -/
def mergeOrdered (a : A) (b : B) : Res (Interval I) := ii (start a) (stop b)

/-- `overlaps_ordered`, `/repo/src/gqdit/mod.rs:519-526` -/
def overlapsOrdered (a : A) (b : B) : Bool :=
  InclusiveInterval.containsPoint a (start b) || InclusiveInterval.containsPoint a (stop b)

/-- `touches_ordered`, `/repo/src/gqdit/mod.rs:528-535` -/
def touchesOrdered (a : A) (b : B) : Res Bool := do
  let d ← unwrap (PointType.down (start b))
  pure (stop a == d)
end

namespace Gqdit
variable {I K Q D : Type} [PointType I] [IntervalType I K] [IntervalType I Q] [DecidableEq D]

/-- `default`, `/repo/src/gqdit/mod.rs:548-559`, and `new`, `/repo/src/gqdit/mod.rs:85-87` -/
def new : Res (Gqdit K D) := do
  let full ← uu
  match ← (NoditMap.new : NoditMap K (Finset D)).insertStrict (ofInterval full) ∅ with
  | (map, .ok ()) => pure ⟨map⟩
  | (_, .error _) => .error .explicit

/-- `gaps_no_identifier`, `/repo/src/gqdit/mod.rs:121-138` -/
def gapsNoIdentifier (g : Gqdit K D) (q : Q) : Res (List K) := do
  invalidIntervalPanic q
  let o ← g.inner.overlapping q
  pure ((o.filter (fun e => e.2 = ∅)).map Prod.fst)

/-- `expand_gaps_at_point_right`, `/repo/src/gqdit/mod.rs:457-471` -/
def expandGapsAtPointRight (g : Gqdit K D) (identifier : D) (point : I) : Res (Option K) := do
  let q ← iu point
  let overlappingRight ← g.inner.overlapping q
  let run := (overlappingRight.takeWhile (fun e => validIdentifier identifier e.2)).map Prod.fst
  let r ← coalesce (fun x y => do pure (.ok (ofInterval (← mergeOrdered x y) : K))) run
  pure r.head?

/-- `expand_gaps_at_point_left`, `/repo/src/gqdit/mod.rs:472-490` -/
def expandGapsAtPointLeft (g : Gqdit K D) (identifier : D) (point : I) : Res (Option K) := do
  let q ← ui point
  let overlappingLeft ← g.inner.overlapping q
  let run := (overlappingLeft.reverse.takeWhile (fun e => validIdentifier identifier e.2)).map Prod.fst
  let r ← coalesce (fun x y => do pure (.ok (ofInterval (← mergeOrdered y x) : K))) run
  pure r.head?

/-- `gaps_with_identifier`, `/repo/src/gqdit/mod.rs:172-226` -/
def gapsWithIdentifier (g : Gqdit K D) (identifier : D) (q : Q) : Res (List K) := do
  invalidIntervalPanic q
  let o ← g.inner.overlapping q
  let validGaps := (o.filter (fun e => validIdentifier identifier e.2)).map Prod.fst
  let nonEndGaps := validGaps.filter (fun gap =>
    !InclusiveInterval.containsPoint gap (start q) && !InclusiveInterval.containsPoint gap (stop q))
  let leftGap ← g.expandGapsAtPointLeft identifier (start q)
  let rightGap ← g.expandGapsAtPointRight identifier (stop q)
  let (leftGap, rightGap) ← match leftGap, rightGap with
    | some left, some right =>
      if overlapsOrdered left right then do
        pure (some (ofInterval (← mergeOrdered left right) : K), none)
      else pure (some left, some right)
    | l, r => pure (l, r)
  coalesce
    (fun x y => do
      if ← touchesOrdered x y then pure (.ok (ofInterval (← mergeOrdered x y) : K)) else pure (.error (x, y)))
    (leftGap.toList ++ nonEndGaps ++ rightGap.toList)

/-- The `for` loop of `insert`, `cut_with_identifiers` and `cut_all_identifiers`: each piece that was cut out is
put back with its identifiers changed by `f`; `/repo/src/gqdit/mod.rs:272-286, 323-337, 389-402`. -/
def putBack (f : Finset D → Finset D) (m : NoditMap K (Finset D)) :
    List (K × Finset D) → Res (NoditMap K (Finset D))
  | [] => pure m
  | (k, ids) :: rest => do
    match ← m.insertMergeTouchingIfValuesEqual k (f ids) with
    | (m, .ok _) => putBack f m rest
    | (_, .error _) => .error .explicit

/-- `cut_with_identifiers`, `/repo/src/gqdit/mod.rs:259-287` -/
def cutWithIdentifiers (g : Gqdit K D) (identifiers : Finset D) (q : Q) : Res (Gqdit K D) := do
  invalidIntervalPanic q
  if identifiers = ∅ then pure g
  else
    let (m, cut) ← g.inner.cut q
    let m ← putBack (fun ids => ids.filter (fun i => i ∉ identifiers)) m cut
    pure ⟨m⟩

/-- `cut_all_identifiers`, `/repo/src/gqdit/mod.rs:317-338` -/
def cutAllIdentifiers (g : Gqdit K D) (q : Q) : Res (Gqdit K D) := do
  invalidIntervalPanic q
  let (m, cut) ← g.inner.cut q
  let m ← putBack (fun _ => ∅) m cut
  pure ⟨m⟩

/-- `insert`, `/repo/src/gqdit/mod.rs:367-403` -/
def insert (g : Gqdit K D) (identifiers : Finset D) (interval : K) : Res (Gqdit K D) := do
  invalidIntervalPanic interval
  if identifiers = ∅ then pure g
  else
    let (m, cut) ← g.inner.cut interval
    let m ← putBack (fun ids => ids ∪ identifiers) m cut
    pure ⟨m⟩

/-- The loop of `append`, `/repo/src/gqdit/mod.rs:425-427` -/
def insertAll (g : Gqdit K D) : List (K × Finset D) → Res (Gqdit K D)
  | [] => pure g
  | (k, ids) :: rest => do
    let g ← g.insert ids k
    g.insertAll rest

/-- `append`, `/repo/src/gqdit/mod.rs:424-428`: `self` and `other` afterwards. -/
def append (g other : Gqdit K D) : Res (Gqdit K D × Gqdit K D) := do
  let full : Interval I ← uu
  let (otherInner, removed) ← other.inner.removeOverlapping full
  let g ← g.insertAll removed
  pure (g, ⟨otherInner⟩)

/-- `identifiers_at_point`, `/repo/src/gqdit/mod.rs:450-455` -/
def identifiersAtPoint (g : Gqdit K D) (point : I) : Res (Finset D) := do
  pure ((← g.inner.getAtPoint point).getD ∅)

/-- `PartialEq::eq`, `/repo/src/gqdit/mod.rs:537-546` (equality of the inner maps) -/
def eq [DecidableEq K] (g h : Gqdit K D) : Bool := g.inner == h.inner

end Gqdit
end Nodit
