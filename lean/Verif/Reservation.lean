import Verif.NoditMap
/-!
# The README's custom interval type

Model of the example `Reservation` in `/repo/README.md:52-92` (the same text is the crate's front page documentation,
`/repo/src/lib.rs:1`, which includes the README).
-/
namespace Nodit
open PointType

/-- `i8`. The point type at `/repo/README.md:70`. -/
abbrev ResI8 := SInt' 8

/-- `enum Reservation { Finite(i8, i8), Infinite(i8) }`, `/repo/README.md:61-67` -/
inductive Reservation where
  | finite (s e : ResI8)
  | infinite (s : ResI8)
deriving DecidableEq

namespace Reservation
/-- `InclusiveInterval::start` for `Reservation`, `/repo/README.md:71-76` -/
def first : Reservation → ResI8
  | .finite s _ => s
  | .infinite s => s

/-- `InclusiveInterval::end` for `Reservation`, `/repo/README.md:77-82` -/
def last : Reservation → ResI8
  | .finite _ e => e
  | .infinite _ => MAX

/-- `From<Interval<i8>> for Reservation`, `/repo/README.md:86-97`. The `unwrap` cannot fail (`end` is not `MAX` there),
so its `None` case is filled with `MAX`. -/
def fromInterval (i : Interval ResI8) : Reservation :=
  if i.stop = MAX then .infinite i.start else .finite i.start ((up i.stop).getD MAX)

/-- `README.md`, the example's `InclusiveInterval` and `From<Interval<i8>>` for `Reservation`, see the definitions above for the lines -/
instance : IntervalType ResI8 Reservation where
  start := first
  stop := last
  ofInterval := fromInterval
end Reservation

/-- `Reservation` with the `From` the crate needs: the end is inclusive already, so it is not moved. Not in `/repo`; it
shows that the type as such is fine. Compare `/repo/README.md:86-97`. -/
structure FixedReservation where
  r : Reservation
deriving DecidableEq

/-- the same with the end itself; not code of `/repo` -/
instance : IntervalType ResI8 FixedReservation where
  start k := k.r.first
  stop k := k.r.last
  ofInterval i := ⟨if i.stop = MAX then .infinite i.start else .finite i.start i.stop⟩

end Nodit
