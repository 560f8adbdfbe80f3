import Verif.IntervalOps
/-!
# `Interval` as a `RangeBounds`

Model of the inherent accessors and of `impl RangeBounds<I> for Interval<I>`, `/repo/src/interval.rs:48-85`, and of
the two users of `RangeBounds` in the standard library that matter to callers: the provided method
`RangeBounds::contains` and `BTreeMap::range`. The standard library is not in `/repo`; its documented behaviour is
transcribed.
-/
namespace Nodit
variable {I V : Type} [PointType I]

/-- `core::ops::Bound`. Used at `/repo/src/interval.rs:74-85`. -/
inductive Bound (I : Type) where
  | included (x : I)
  | excluded (x : I)
  | unbounded
deriving DecidableEq, Repr

namespace Interval
/-- `Interval::start` (inherent), `/repo/src/interval.rs:59-61` -/
def getStart (i : Interval I) : I := i.start
/-- `Interval::end` (inherent), `/repo/src/interval.rs:69-71` -/
def getEnd (i : Interval I) : I := i.stop
/-- `RangeBounds::start_bound`, `/repo/src/interval.rs:78-80` -/
def startBound (i : Interval I) : Bound I := .included i.start
/-- `RangeBounds::end_bound`, `/repo/src/interval.rs:82-84` -/
def endBound (i : Interval I) : Bound I := .included i.stop
end Interval

namespace Bound
/-- the test on the lower bound in the provided method `RangeBounds::contains` of the standard library.
Reads `/repo/src/interval.rs:78-80`. -/
def admitsAbove : Bound I → I → Bool
  | .included s, p => s ≤ p
  | .excluded s, p => s < p
  | .unbounded, _ => true
/-- the test on the upper bound in `RangeBounds::contains`. Reads `/repo/src/interval.rs:82-84`. -/
def admitsBelow : Bound I → I → Bool
  | .included e, p => p ≤ e
  | .excluded e, p => p < e
  | .unbounded, _ => true
end Bound

/-- the provided method `RangeBounds::contains` of the standard library, which `Interval` does not override
(`/repo/src/interval.rs:74-85`) -/
def Interval.rangeContains (i : Interval I) (p : I) : Bool :=
  i.startBound.admitsAbove p && i.endBound.admitsBelow p

/-- The standard library's `BTreeMap::<I, V>::range(bounds)` on a map given by its entries in key order: it panics
"if range start > end" or "if range start == end and both bounds are Excluded", and otherwise yields the entries
from the first one admitted by the lower bound up to the last one admitted by the upper bound.
A user of `/repo/src/interval.rs:74-85`. -/
def stdRange (lower upper : Bound I) (l : List (I × V)) : Except Unit (List (I × V)) :=
  let bad : Bool := match lower, upper with
    | .excluded s, .excluded e => s ≥ e
    | .included s, .included e => s > e
    | .included s, .excluded e => s > e
    | .excluded s, .included e => s > e
    | _, _ => false
  if bad then .error ()
  else .ok ((l.dropWhile fun e => !lower.admitsAbove e.1).takeWhile fun e => upper.admitsBelow e.1)

/-- `btree_map.range(interval)`. A user of `/repo/src/interval.rs:74-85`. -/
def Interval.selectFrom (i : Interval I) (l : List (I × V)) : Except Unit (List (I × V)) :=
  stdRange i.startBound i.endBound l

end Nodit
