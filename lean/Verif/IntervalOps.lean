import Verif.Utils
/-!
# Interval constructors, conversions and the remaining interval methods

Model of the functions of `/repo/src/interval.rs`.
-/
namespace Nodit
open PointType

variable {I K Q : Type} [PointType I] [IntervalType I K] [IntervalType I Q]

/-- build an interval and check it: the common tail of all constructors, e.g.
`/repo/src/interval.rs:154-156` -/
def mkChecked (i : Interval I) : Res (Interval I) := do
  invalidIntervalPanic i
  pure i

/-- `uu`, `/repo/src/interval.rs:145-157` -/
def uu : Res (Interval I) := mkChecked { start := MIN, stop := MAX }
/-- `ui`, `/repo/src/interval.rs:174-183` -/
def ui (e : I) : Res (Interval I) := mkChecked { start := MIN, stop := e }
/-- `ue`, `/repo/src/interval.rs:200-212` -/
def ue (e : I) : Res (Interval I) := do
  let e' ← unwrap (down e)
  mkChecked { start := MIN, stop := e' }
/-- `iu`, `/repo/src/interval.rs:229-238` -/
def iu (s : I) : Res (Interval I) := mkChecked { start := s, stop := MAX }
/-- `eu`, `/repo/src/interval.rs:255-267` -/
def eu (s : I) : Res (Interval I) := do
  let s' ← unwrap (up s)
  mkChecked { start := s', stop := MAX }
/-- `ii`, `/repo/src/interval.rs:284-293` -/
def ii (s e : I) : Res (Interval I) := mkChecked { start := s, stop := e }
/-- `ie`, `/repo/src/interval.rs:310-322` -/
def ie (s e : I) : Res (Interval I) := do
  let e' ← unwrap (down e)
  mkChecked { start := s, stop := e' }
/-- `ei`, `/repo/src/interval.rs:339-351` -/
def ei (s e : I) : Res (Interval I) := do
  let s' ← unwrap (up s)
  mkChecked { start := s', stop := e }
/-- `ee`, `/repo/src/interval.rs:368-380` -/
def ee (s e : I) : Res (Interval I) := do
  let s' ← unwrap (up s)
  let e' ← unwrap (down e)
  mkChecked { start := s', stop := e' }

/-- `core::ops::Range`. Used at `/repo/src/interval.rs:111-126`. -/
structure Range (I : Type) where
  start : I
  stop : I
deriving DecidableEq, Repr
/-- `core::ops::RangeInclusive`. Used at `/repo/src/interval.rs:95-110`. -/
structure RangeInclusive (I : Type) where
  start : I
  stop : I
deriving DecidableEq, Repr

/-- `From<Interval<I>> for RangeInclusive<I>`, `/repo/src/interval.rs:98-102` -/
def Interval.toRangeInclusive (i : Interval I) : RangeInclusive I := ⟨i.start, i.stop⟩
/-- `From<RangeInclusive<I>> for Interval<I>`, `/repo/src/interval.rs:103-110` -/
def RangeInclusive.toInterval (r : RangeInclusive I) : Res (Interval I) := ii r.start r.stop
/-- `From<Interval<I>> for Range<I>`, `/repo/src/interval.rs:111-118` -/
def Interval.toRange (i : Interval I) : Res (Range I) := do
  let e ← unwrap (up i.stop)
  pure ⟨i.start, e⟩
/-- `From<Range<I>> for Interval<I>`, `/repo/src/interval.rs:119-126` -/
def Range.toInterval (r : Range I) : Res (Interval I) := ie r.start r.stop

namespace InclusiveInterval

/-- `InclusiveInterval::overlaps`, `/repo/src/interval.rs:526-535` -/
def overlaps (k : K) (q : Q) : Res Bool := do
  match ← sortedConfig k q with
  | .nonOverlapping _ _ => pure false
  | _ => pure true

/-- `InclusiveInterval::translate`, `/repo/src/interval.rs:547-557`. `add` is the point type's `+`, which
panics on overflow in builds with overflow checks and wraps in builds without. -/
def translate (add : I → I → Res I) (k : K) (delta : I) : Res K := do
  let s ← add (start k) delta
  let e ← add (stop k) delta
  pure (ofInterval { start := s, stop := e })

/-- `InclusiveInterval::width`, `/repo/src/interval.rs:571-577`. `sub` is the point type's `-`. -/
def width (sub : I → I → Res I) (k : K) : Res I := sub (stop k) (start k)

end InclusiveInterval

namespace BInt
variable {lo hi : Int}

/-- `+` on a primitive integer with overflow checks (debug builds): panic on overflow.
Used at `/repo/src/interval.rs:554-555`. -/
def addChecked (a b : BInt lo hi) : Res (BInt lo hi) :=
  match a.checkedAdd b.val with
  | some c => .ok c
  | none => .error .overflow
/-- `-` on a primitive integer with overflow checks (debug builds): panic on overflow.
Used at `/repo/src/interval.rs:576`. -/
def subChecked (a b : BInt lo hi) : Res (BInt lo hi) :=
  match a.checkedSub b.val with
  | some c => .ok c
  | none => .error .overflow

/-- reduce modulo the size of the type into `lo ..= hi`. Used by the two below.
Rust's two's-complement wrapping of the primitive integers, no lines of `/repo`. -/
def wrapInt (lo hi : Int) (h : lo ≤ hi) (n : Int) : BInt lo hi :=
  ⟨lo + (n - lo) % (hi - lo + 1), by
      have := Int.emod_nonneg (n - lo) (b := hi - lo + 1) (by omega); omega, by
      have := Int.emod_lt_of_pos (n - lo) (b := hi - lo + 1) (by omega); omega⟩

/-- `+` on a primitive integer without overflow checks (release builds): two's complement wrap-around.
Used at `/repo/src/interval.rs:554-555`. -/
def addWrapping (a b : BInt lo hi) : Res (BInt lo hi) :=
  .ok (wrapInt lo hi (Int.le_trans a.ge a.le) (a.val + b.val))
/-- `-` on a primitive integer without overflow checks (release builds). Used at `/repo/src/interval.rs:576`. -/
def subWrapping (a b : BInt lo hi) : Res (BInt lo hi) :=
  .ok (wrapInt lo hi (Int.le_trans a.ge a.le) (a.val - b.val))
end BInt

end Nodit
