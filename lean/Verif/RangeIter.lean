import Verif.RangeBounds
/-!
# Iterated ranges

`core::ops::RangeInclusive` is its own iterator: it carries, beside its two end-points, a flag `exhausted` that
iteration sets. `From<RangeInclusive<I>> for Interval<I>` (`/repo/src/interval.rs:103-110`) reads only `start()` and
`end()`. The conversion model in `IntervalOps.lean` is for a range without the flag; this file models the full value.
The standard library is not in `/repo`; its source (`core::ops::RangeInclusive` and `core::iter::range`) is
transcribed. Simplification: the stepping of the standard library's integer types is `up`/`down`, which is what
`/repo/src/discrete_finite.rs:23-40` computes on those types.
-/
namespace Nodit
open PointType
variable {I : Type} [PointType I]

/-- `core::ops::RangeInclusive` with its `exhausted` flag. The argument of `/repo/src/interval.rs:103-110`. -/
structure IterRange (I : Type) where
  start : I
  stop : I
  exhausted : Bool
deriving DecidableEq, Repr

namespace IterRange

/-- `start..=stop`. The argument of `/repo/src/interval.rs:103-110`. -/
def new (s e : I) : IterRange I := ⟨s, e, false⟩
/-- `From<Interval<I>> for RangeInclusive<I>`, `/repo/src/interval.rs:98-102` -/
def ofInterval (i : Interval I) : IterRange I := new i.start i.stop
/-- `From<RangeInclusive<I>> for Interval<I>`, `/repo/src/interval.rs:103-110`: `ii(*value.start(), *value.end())` -/
def toInterval (r : IterRange I) : Res (Interval I) := ii r.start r.stop
/-- `RangeInclusive::is_empty`. The argument of `/repo/src/interval.rs:103-110`. -/
def isEmpty (r : IterRange I) : Bool := r.exhausted || !(decide (r.start ≤ r.stop))
/-- `RangeBounds::end_bound` for `RangeInclusive`. The argument of `/repo/src/interval.rs:103-110`. -/
def endBound (r : IterRange I) : Bound I := if r.exhausted then .excluded r.stop else .included r.stop
/-- `RangeInclusive::contains`. The argument of `/repo/src/interval.rs:103-110`. -/
def contains (r : IterRange I) (p : I) : Bool := (Bound.included r.start).admitsAbove p && r.endBound.admitsBelow p
/-- `Iterator::next` for `RangeInclusive`. The argument of `/repo/src/interval.rs:103-110`. -/
def next (r : IterRange I) : Option I × IterRange I :=
  if r.isEmpty then (none, r)
  else if r.start < r.stop then (some r.start, { r with start := (up r.start).getD r.start })
  else (some r.start, { r with exhausted := true })
/-- `DoubleEndedIterator::next_back` for `RangeInclusive`. The argument of `/repo/src/interval.rs:103-110`. -/
def nextBack (r : IterRange I) : Option I × IterRange I :=
  if r.isEmpty then (none, r)
  else if r.start < r.stop then (some r.stop, { r with stop := (down r.stop).getD r.stop })
  else (some r.stop, { r with exhausted := true })
/-- a client that calls `next` (`false`) and `next_back` (`true`): the items it saw and the range it is left with.
The argument of `/repo/src/interval.rs:103-110`. -/
def iterate : List Bool → IterRange I → List (Option I) × IterRange I
  | [], r => ([], r)
  | b :: bs, r =>
    let s := if b then r.nextBack else r.next
    let t := iterate bs s.2
    (s.1 :: t.1, t.2)

end IterRange
end Nodit
