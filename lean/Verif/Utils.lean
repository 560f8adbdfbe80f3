import Verif.Interval
/-!
# Helper functions

Model of `/repo/src/utils.rs`. Comparators have the type `K → Ordering`: the ordering of the search target
relative to the inner key they are applied to.
-/
namespace Nodit

/-- `enum Config`, `/repo/src/utils.rs:13-22` -/
inductive Config where
  | leftFirstNonOverlapping
  | leftFirstPartialOverlap
  | leftContainsRight
  | rightFirstNonOverlapping
  | rightFirstPartialOverlap
  | rightContainsLeft
deriving DecidableEq, Repr

/-- `enum SortedConfig<I>`, `/repo/src/utils.rs:46-50` -/
inductive SortedConfig (I : Type) where
  | nonOverlapping (a b : Interval I)
  | partialOverlap (a b : Interval I)
  | swallowed (a b : Interval I)
deriving DecidableEq, Repr

/-- `struct CutResult<I>`, `/repo/src/utils.rs:88-93` -/
structure CutResult (I : Type) where
  beforeCut : Option (Interval I)
  insideCut : Option (Interval I)
  afterCut : Option (Interval I)
deriving DecidableEq, Repr

variable {I K A B Q : Type} [PointType I] [IntervalType I K] [IntervalType I A] [IntervalType I B]
  [IntervalType I Q]

/-- `inclusive_comp_generator`, `/repo/src/utils.rs:203-220` -/
def inclusiveComp (point : I) (extraneous : Ordering) (inner : K) : Ordering :=
  if point < start inner then .lt
  else if point > stop inner then .gt
  else extraneous

/-- `exclusive_comp_generator`, `/repo/src/utils.rs:183-202` -/
def exclusiveComp (point : I) (extraneous : Ordering) (inner : K) : Ordering :=
  if point = start inner ∧ point = stop inner then extraneous
  else if point ≤ start inner then .lt
  else if point ≥ stop inner then .gt
  else .eq

/-- `cmp_point_with_interval`, `/repo/src/utils.rs:5-11` -/
def cmpPointWithInterval (point : I) (interval : K) : Ordering := inclusiveComp point .eq interval

/-- `contains_point`, `/repo/src/utils.rs:80-86` -/
def containsPointU (interval : K) (point : I) : Bool := (cmpPointWithInterval point interval).isEq

/-- `overlapping_comp`, `/repo/src/utils.rs:221-227` -/
def overlappingComp (point : I) (inner : K) : Ordering := cmpPointWithInterval point inner

/-- `starts_comp`, `/repo/src/utils.rs:174-182`, with the new interval given first. -/
def startsComp (new inner : K) : Ordering := compare (start new) (start inner)

/-- `touching_start_comp`, `/repo/src/utils.rs:228-237` -/
def touchingStartComp (s : I) (inner : K) : Ordering :=
  match PointType.up (stop inner) with
  | some touchingPosition => compare s touchingPosition
  | none => .lt

/-- `touching_end_comp`, `/repo/src/utils.rs:238-247` -/
def touchingEndComp (e : I) (inner : K) : Ordering :=
  match PointType.down (start inner) with
  | some touchingPosition => compare e touchingPosition
  | none => .gt

/-- `invalid_interval_panic`, `/repo/src/utils.rs:249-259` -/
def invalidIntervalPanic (q : Q) : Res Unit :=
  if !InclusiveInterval.isValid q then .error .invalidInterval else .ok ()

/-- `config`, `/repo/src/utils.rs:23-44` -/
def config (a : A) (b : B) : Res Config :=
  if start a < start b then
    match containsPointU a (start b), containsPointU a (stop b) with
    | false, false => .ok .leftFirstNonOverlapping
    | true, false => .ok .leftFirstPartialOverlap
    | true, true => .ok .leftContainsRight
    | false, true => .error .unreachable
  else
    match containsPointU b (start a), containsPointU b (stop a) with
    | false, false => .ok .rightFirstNonOverlapping
    | true, false => .ok .rightFirstPartialOverlap
    | true, true => .ok .rightContainsLeft
    | false, true => .error .unreachable

/-- `sorted_config`, `/repo/src/utils.rs:51-78`. (`LeftFirstPartialOverlap` is mapped to `Swallowed`, as in
the code; only `overlaps` uses the result and it only looks at `NonOverlapping`.) -/
def sortedConfig (a : A) (b : B) : Res (SortedConfig I) := do
  let ae : Interval I := { start := start a, stop := stop a }
  let be : Interval I := { start := start b, stop := stop b }
  match ← config a b with
  | .leftFirstNonOverlapping => pure (.nonOverlapping ae be)
  | .leftFirstPartialOverlap => pure (.swallowed ae be)
  | .leftContainsRight => pure (.swallowed ae be)
  | .rightFirstNonOverlapping => pure (.nonOverlapping be ae)
  | .rightFirstPartialOverlap => pure (.partialOverlap be ae)
  | .rightContainsLeft => pure (.swallowed be ae)

/-- The match of `cut_interval`, `/repo/src/utils.rs:100-164` -/
def cutIntervalRaw (base : A) (cut : B) : Res (CutResult I) := do
  match ← config base cut with
  | .leftFirstNonOverlapping =>
    pure { beforeCut := some ⟨start base, stop base⟩, insideCut := none, afterCut := none }
  | .leftFirstPartialOverlap => do
    let d ← unwrap (PointType.down (start cut))
    pure { beforeCut := some ⟨start base, d⟩
           insideCut := some ⟨start cut, stop base⟩
           afterCut := none }
  | .leftContainsRight => do
    let d ← unwrap (PointType.down (start cut))
    pure { beforeCut := some ⟨start base, d⟩
           insideCut := some ⟨start cut, stop cut⟩
           afterCut := match PointType.up (stop cut) with
             | some uppedEnd => some ⟨uppedEnd, stop base⟩
             | none => none }
  | .rightFirstNonOverlapping =>
    pure { beforeCut := none, insideCut := none, afterCut := some ⟨start base, stop base⟩ }
  | .rightFirstPartialOverlap => do
    let u ← unwrap (PointType.up (stop cut))
    pure { beforeCut := none
           insideCut := some ⟨start base, stop cut⟩
           afterCut := some ⟨u, stop base⟩ }
  | .rightContainsLeft =>
    pure { beforeCut := none, insideCut := some ⟨start base, stop base⟩, afterCut := none }

/-- `cut_interval`, `/repo/src/utils.rs:94-172` (the final filter keeps only valid intervals). -/
def cutInterval (base : A) (cut : B) : Res (CutResult I) := do
  let r ← cutIntervalRaw base cut
  pure { beforeCut := r.beforeCut.filter (fun x => InclusiveInterval.isValid x)
         insideCut := r.insideCut.filter (fun x => InclusiveInterval.isValid x)
         afterCut := r.afterCut.filter (fun x => InclusiveInterval.isValid x) }

end Nodit
