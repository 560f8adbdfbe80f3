import Verif.Crash
import Verif.GqSpec
/-!
# `Gqdit` calls interrupted by a panic in user code

As `Verif/Crash.lean`, for the changing methods of `/repo/src/gqdit/mod.rs`. User code is here also the `Ord`, `Clone` and
`Drop` of the identifiers.
-/
namespace Nodit.Crash
open PointType Spec Act

variable {I K Q D : Type} [PointType I] [IntervalType I K] [IntervalType I Q] [DecidableEq D]

/-- a program on the field `inner` of a `Gqdit`.
A client, its specification or bookkeeping, models no lines of `/repo`; the calls are those of `gqdit/mod.rs`. -/
def inner {α : Type} (x : Act (NoditMap K (Finset D)) α) : Act (Gqdit K D) α := fun g n =>
  let r := x g.inner n
  (r.1, ⟨r.2.1⟩, r.2.2)

/-- the `for` loops over the pieces cut out, `/repo/src/gqdit/mod.rs:272-286, 323-337, 389-402` -/
def putBackIds (f : Finset D → Finset D) : List (K × Finset D) → Act (NoditMap K (Finset D)) Unit
  | [] => pure ()
  | (k, ids) :: rest => do
    user
    match ← insertMergeTouchingIfValuesEqual k (f ids) with
    | .ok _ => putBackIds f rest
    | .error _ => res (.error .explicit)

/-- `cut_with_identifiers`, `/repo/src/gqdit/mod.rs:259-287` -/
def cutWithIdentifiers (identifiers : Finset D) (q : Q) : Act (Gqdit K D) Unit := do
  user
  res (invalidIntervalPanic q)
  if identifiers = ∅ then pure ()
  else inner do
    let out ← cut q
    putBackIds (fun ids => ids.filter (fun i => i ∉ identifiers)) out

/-- `cut_all_identifiers`, `/repo/src/gqdit/mod.rs:317-338` -/
def cutAllIdentifiers (q : Q) : Act (Gqdit K D) Unit := do
  user
  res (invalidIntervalPanic q)
  inner do
    let out ← cut q
    putBackIds (fun _ => ∅) out

/-- `insert`, `/repo/src/gqdit/mod.rs:367-403` -/
def insertIds (identifiers : Finset D) (k : K) : Act (Gqdit K D) Unit := do
  user
  res (invalidIntervalPanic k)
  if identifiers = ∅ then pure ()
  else inner do
    let out ← cut k
    putBackIds (fun ids => ids ∪ identifiers) out

/-- a program on `self`, with `other` at hand.
A client, its specification or bookkeeping, models no lines of `/repo`; the calls are those of `gqdit/mod.rs`. -/
def onSelf {α : Type} (x : Act (Gqdit K D) α) : Act (Gqdit K D × Gqdit K D) α := fun s n =>
  let r := x s.1 n
  (r.1, (r.2.1, s.2), r.2.2)

/-- a program on `other`, with `self` at hand.
A client, its specification or bookkeeping, models no lines of `/repo`; the calls are those of `gqdit/mod.rs`. -/
def onOther {α : Type} (x : Act (Gqdit K D) α) : Act (Gqdit K D × Gqdit K D) α := fun s n =>
  let r := x s.2 n
  (r.1, (s.1, r.2.1), r.2.2)

/-- the `for` loop of `append`, `/repo/src/gqdit/mod.rs:425-427` -/
def insertAllIds : List (K × Finset D) → Act (Gqdit K D) Unit
  | [] => pure ()
  | (k, ids) :: rest => do
    insertIds ids k
    insertAllIds rest

/-- `append`, `/repo/src/gqdit/mod.rs:424-428`, on the pair of `self` and `other` -/
def append : Act (Gqdit K D × Gqdit K D) Unit := do
  user
  let full : Interval I ← res uu
  let removed ← onOther (inner (removeOverlapping full))
  onSelf (insertAllIds removed)

end Nodit.Crash

namespace Nodit.Spec
variable {I K D : Type} [PointType I] [IntervalType I K] [DecidableEq D]

/-- the changing calls of a single `Gqdit`.
A client, its specification or bookkeeping, models no lines of `/repo`; the calls are those of `gqdit/mod.rs`. -/
inductive GqOp (I K D : Type) where
  | insert (ids : Finset D) (k : K)
  | cutWithIdentifiers (ids : Finset D) (q : Interval I)
  | cutAllIdentifiers (q : Interval I)

/-- the program that makes one more call.
A client, its specification or bookkeeping, models no lines of `/repo`; the calls are those of `gqdit/mod.rs`. -/
def GqProg.call (h : GqProg I K D) : GqOp I K D → GqProg I K D
  | .insert ids k => .insert h ids k
  | .cutWithIdentifiers ids q => .cutWithIdentifiers h ids q
  | .cutAllIdentifiers q => .cutAllIdentifiers h q

/-- the interval `k` overlaps or touches the argument of the call.
A client, its specification or bookkeeping, models no lines of `/repo`; the calls are those of `gqdit/mod.rs`. -/
def GqOp.Near (k : K) : GqOp I K D → Prop
  | .insert _ q => Overlap k q ∨ Touch k q
  | .cutWithIdentifiers _ q | .cutAllIdentifiers q => Overlap k q ∨ Touch k q

/-- the argument has no points.
A client, its specification or bookkeeping, models no lines of `/repo`; the calls are those of `gqdit/mod.rs`. -/
def GqOp.Bad : GqOp I K D → Prop
  | .insert _ k => ¬ Valid k
  | .cutWithIdentifiers _ q | .cutAllIdentifiers q => ¬ Valid q

end Nodit.Spec

namespace Nodit.Crash
open Spec
variable {I K D : Type} [PointType I] [IntervalType I K] [DecidableEq D]

/-- one call. A client, its specification or bookkeeping, models no lines of `/repo`; the calls are those of `gqdit/mod.rs`. -/
def gqStep : GqOp I K D → Act (Gqdit K D) Unit
  | .insert ids k => insertIds ids k
  | .cutWithIdentifiers ids q => cutWithIdentifiers ids q
  | .cutAllIdentifiers q => cutAllIdentifiers q

/-- A sequence of calls, each with the number of runs of user code after which the next one panics (`none`: it does
not). All panics are caught.
A client, its specification or bookkeeping, models no lines of `/repo`; the calls are those of `gqdit/mod.rs`. -/
def gqRun (g : Gqdit K D) : List (GqOp I K D × Option Nat) → Gqdit K D
  | [] => g
  | (op, n) :: ops => gqRun (gqStep op g n).2.1 ops

end Nodit.Crash
