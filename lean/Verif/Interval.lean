import Verif.Point
/-!
# Intervals

Model of the data part of `/repo/src/interval.rs`: the `Interval` struct and the required and simple
provided methods of the `InclusiveInterval` trait. The constructors and the methods that go through
`utils.rs` are in `Verif/IntervalOps.lean` (in Rust the two files import each other).
-/
namespace Nodit

/-- `struct Interval<I>`, `/repo/src/interval.rs:40-47`. The Rust field `end` is called `stop` (Lean
keyword). The struct itself can hold `start > end` (the code builds such values internally, e.g.
`/repo/src/nodit/map.rs:538-541`). -/
structure Interval (I : Type) where
  start : I
  stop : I
deriving DecidableEq, Repr

/-- `trait InclusiveInterval<I>: Copy + From<Interval<I>>`, `/repo/src/interval.rs:383-407`, and the
`IntervalType` marker, `/repo/src/nodit/map.rs:77-85`. -/
class IntervalType (I : outParam Type) (K : Type) where
  /-- `InclusiveInterval::start`, `/repo/src/interval.rs:395` -/
  start : K → I
  /-- `InclusiveInterval::end`, `/repo/src/interval.rs:407` -/
  stop : K → I
  /-- `From<Interval<I>>::from` -/
  ofInterval : Interval I → K

export IntervalType (start stop ofInterval)

/-- The contract implicitly required of user interval types: converting from an `Interval` keeps both
end-points. (Required for invalid ones too: `gaps_*` converts first and filters on validity afterwards,
`/repo/src/nodit/map.rs:537-543`.) -/
class LawfulInterval (I : outParam Type) (K : Type) [IntervalType I K] : Prop where
  start_of : ∀ i : Interval I, start (ofInterval i : K) = i.start
  stop_of : ∀ i : Interval I, stop (ofInterval i : K) = i.stop

/-- `impl InclusiveInterval<I> for Interval<I>`, `/repo/src/interval.rs:86-97` (and the reflexive `From`). -/
instance {I : Type} : IntervalType I (Interval I) where
  start i := i.start
  stop i := i.stop
  ofInterval i := i

/-- `/repo/src/interval.rs:42-47`: `Interval` itself; `From<Interval<I>> for Interval<I>` is the identity (standard library) -/
instance {I : Type} : LawfulInterval I (Interval I) where
  start_of _ := rfl
  stop_of _ := rfl

section
variable {I K Q : Type} [PointType I] [IntervalType I K] [IntervalType I Q]

namespace InclusiveInterval
/-- `InclusiveInterval::contains_point`, `/repo/src/interval.rs:421-426` -/
def containsPoint (k : K) (point : I) : Bool := point ≥ start k && point ≤ stop k

/-- `InclusiveInterval::contains_interval`, `/repo/src/interval.rs:442-448` -/
def containsInterval (k : K) (q : Q) : Bool := start k ≤ start q && stop k ≥ stop q

/-- `InclusiveInterval::is_valid`, `/repo/src/interval.rs:463-468` -/
def isValid (k : K) : Bool := start k ≤ stop k

/-- `InclusiveInterval::is_singular`, `/repo/src/interval.rs:481-486` -/
def isSingular (k : K) : Bool := start k == stop k

/-- `InclusiveInterval::intersection`, `/repo/src/interval.rs:498-514` -/
def intersection (k : K) (q : Q) : Option K :=
  let intersectStart := max (start k) (start q)
  let intersectEnd := min (stop k) (stop q)
  if intersectStart ≤ intersectEnd then
    some (ofInterval { start := intersectStart, stop := intersectEnd })
  else none
end InclusiveInterval
end
end Nodit
