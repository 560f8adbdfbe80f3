import Verif.NoditSet
import Verif.Gqdit
import Verif.Zosdit
import Verif.Spec
/-!
# Histories of `NoditMap` calls

`step` dispatches a call to the model function of `Verif/NoditMap.lean`; `run` executes a sequence of calls.
A call that panics leaves the map as it was. -/
namespace Nodit.NoditMap
open Spec
variable {I K V : Type} [PointType I] [IntervalType I K] [BEq V]

/-- `Result<_, OverlapError<V>>` as an output. A client, models no lines of `/repo`; for the calls see the functions cited. -/
def errValue {α : Type} : Except (OverlapError V) α → Except V α
  | .ok a => .ok a
  | .error e => .error e.value

/-- One call. The files and lines modelled are those cited at the functions called.
A client, models no lines of `/repo`; for the calls see the functions cited. -/
def step (m : NoditMap K V) : Op I K V → Res (NoditMap K V × Out K V)
  | .insertStrict k v => do let (m, r) ← m.insertStrict k v; pure (m, .strict (errValue r))
  | .insertMergeTouching k v => do let (m, r) ← m.insertMergeTouching k v; pure (m, .merge (errValue r))
  | .insertMergeTouchingIfValuesEqual k v => do
    let (m, r) ← m.insertMergeTouchingIfValuesEqual k v; pure (m, .merge (errValue r))
  | .insertMergeOverlapping k v => do let (m, r) ← m.insertMergeOverlapping k v; pure (m, .key r)
  | .insertMergeTouchingOrOverlapping k v => do
    let (m, r) ← m.insertMergeTouchingOrOverlapping k v; pure (m, .key r)
  | .insertOverwrite k v => do let (m, r) ← m.insertOverwrite k v; pure (m, .entries r)
  | .cut q => do let (m, r) ← m.cut q; pure (m, .entries r)
  | .removeOverlapping q => do let (m, r) ← m.removeOverlapping q; pure (m, .entries r)
  | .overlapping q => do pure (m, .entries (← m.overlapping q))
  | .overlaps q => do pure (m, .bool (← m.overlaps q))
  | .gapsUntrimmed q => do pure (m, .keys (← m.gapsUntrimmed q))
  | .gapsTrimmed q => do pure (m, .keys (← m.gapsTrimmed q))
  | .containsInterval q => do pure (m, .bool (← m.containsInterval q))
  | .overlappingMut q f => do pure (← m.overlappingMut q f, .unit)
  | .getAtPoint p => do pure (m, .optValue (← m.getAtPoint p))
  | .getKeyValueAtPoint p => do pure (m, .lookup (← m.getKeyValueAtPoint p))
  | .containsPoint p => do pure (m, .bool (← m.containsPoint p))
  | .getAtPointMut p f => let (m, r) := m.getAtPointMut p f; pure (m, .optValue r)
  | .iterMut f => pure (m.iterMut f, .unit)
  | .iter => pure (m, .entries m.iter)
  | .len => pure (m, .nat m.len)
  | .isEmpty => pure (m, .bool m.isEmpty)
  | .firstKeyValue => pure (m, .optEntry m.firstKeyValue)
  | .lastKeyValue => pure (m, .optEntry m.lastKeyValue)

/-- A sequence of calls: the final map and what each call returned.
A client, models no lines of `/repo`; for the calls see the functions cited. -/
def run (m : NoditMap K V) : List (Op I K V) → NoditMap K V × List (Res (Out K V))
  | [] => (m, [])
  | op :: ops =>
    match m.step op with
    | .error p => let (m', os) := m.run ops; (m', .error p :: os)
    | .ok (m1, o) => let (m', os) := m1.run ops; (m', .ok o :: os)

/-- The set of entries of a map, as seen through `iter()`.
A client, models no lines of `/repo`; for the calls see the functions cited. -/
def entrySet {K V : Type} (m : NoditMap K V) : Set (K × V) := {e | e ∈ m.iter}

/-- `m` is the result of some sequence of calls on a fresh map.
A client, models no lines of `/repo`; for the calls see the functions cited. -/
def Reachable (m : NoditMap K V) : Prop := ∃ ops : List (Op I K V), (new.run ops).1 = m

end Nodit.NoditMap

namespace Nodit.NoditSet
open Spec
variable {I K : Type} [PointType I] [IntervalType I K]

/-- One changing call, with its result dropped (the results are treated per call in `Verif/Props/SetProps.lean`).
A client, models no lines of `/repo`; for the calls see the functions cited. -/
def step (s : NoditSet K) : SetOp I K → Res (NoditSet K)
  | .insertStrict k => do let (s, _) ← s.insertStrict k; pure s
  | .insertMergeTouching k => do let (s, _) ← s.insertMergeTouching k; pure s
  | .insertMergeOverlapping k => do let (s, _) ← s.insertMergeOverlapping k; pure s
  | .insertMergeTouchingOrOverlapping k => do let (s, _) ← s.insertMergeTouchingOrOverlapping k; pure s
  | .insertOverwrite k => do let (s, _) ← s.insertOverwrite k; pure s
  | .cut q => do let (s, _) ← s.cut q; pure s
  | .removeOverlapping q => do let (s, _) ← s.removeOverlapping q; pure s

/-- A sequence of calls; a call that panics leaves the set as it was.
A client, models no lines of `/repo`; for the calls see the functions cited. -/
def run (s : NoditSet K) : List (SetOp I K) → NoditSet K
  | [] => s
  | op :: ops =>
    match s.step op with
    | .error _ => s.run ops
    | .ok s1 => s1.run ops

end Nodit.NoditSet

namespace Nodit.Gqdit
open Spec
variable {I K D : Type} [PointType I] [IntervalType I K] [DecidableEq D]

/-- The `Gqdit` a history leads to, or the panic of the first call that panics. (Every call checks its argument
before it changes anything - see `insert`, `cut_with_identifiers`, `cut_all_identifiers` - so a caller that catches
the panic is left with the history without that call.).
A client, models no lines of `/repo`; for the calls see the functions cited. -/
def eval : GqHist I K D → Res (Gqdit K D)
  | .new => new
  | .insert g ids k => do (← eval g).insert ids k
  | .cutWithIdentifiers g ids q => do (← eval g).cutWithIdentifiers ids q
  | .cutAllIdentifiers g q => do (← eval g).cutAllIdentifiers q
  | .append g other => do
    let g ← eval g
    let other ← eval other
    let (g, _) ← g.append other
    pure g

end Nodit.Gqdit

namespace Nodit.ZosditMap
open Spec
variable {I K V : Type} [PointType I] [IntervalType I K]

/-- `Result<_, NonZeroOverlapError<V>>` as an output. A client, models no lines of `/repo`; for the calls see the functions cited. -/
def errValue {α : Type} : Except (NonZeroOverlapError V) α → Except V α
  | .ok a => .ok a
  | .error e => .error e.value

/-- One changing call. A client, models no lines of `/repo`; for the calls see the functions cited. -/
def step (m : ZosditMap K V) : ZOp I K V → Res (ZosditMap K V × ZOut K V)
  | .insertStrictBack k v pick => do let (m, r) ← m.insertStrictBack k v pick; pure (m, .strict (errValue r))
  | .removeLastValueAtPoint p => do let (m, r) ← m.removeLastValueAtPoint p; pure (m, .optValue r)
  | .cut q => do let (m, r) ← m.cut q; pure (m, .entries r)

/-- A sequence of calls: the final map and what each call returned. A call that panics leaves the map as it was
(every call checks its argument first, and - C37 - there is no other panic).
A client, models no lines of `/repo`; for the calls see the functions cited. -/
def run (m : ZosditMap K V) : List (ZOp I K V) → ZosditMap K V × List (Res (ZOut K V))
  | [] => (m, [])
  | op :: ops =>
    match m.step op with
    | .error p => let (m', os) := m.run ops; (m', .error p :: os)
    | .ok (m1, o) => let (m', os) := m1.run ops; (m', .ok o :: os)

end Nodit.ZosditMap
