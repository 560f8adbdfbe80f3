import Verif.BTree
import Verif.IntervalOps
/-!
# `ZosditMap`

Model of `/repo/src/zosdit/map.rs`. A `SmallVec` is a list. `usize` lengths are natural numbers (a map whose length
overflows `usize` does not fit in memory); a subtraction that would go below zero is a panic.
-/
namespace Nodit

/-- `struct ZosditMap<I, K, V>`, `/repo/src/zosdit/map.rs:60-67` -/
structure ZosditMap (K V : Type) where
  len : Nat
  inner : List (K × List V)
deriving DecidableEq, Repr

/-- `struct NonZeroOverlapError<V>`, `/repo/src/zosdit/map.rs:69-75` -/
structure NonZeroOverlapError (V : Type) where
  value : V
deriving DecidableEq, Repr

namespace ZosditMap
variable {I K Q V : Type} [PointType I] [IntervalType I K] [IntervalType I Q]

/-- `new`/`default`, `/repo/src/zosdit/map.rs:91-93, 614-622` -/
def new : ZosditMap K V := ⟨0, []⟩

/-- `len()`, `/repo/src/zosdit/map.rs:96-98`: the hand-maintained counter -/
def length (m : ZosditMap K V) : Nat := m.len

/-- `is_empty`, `/repo/src/zosdit/map.rs:100-102` -/
def isEmpty (m : ZosditMap K V) : Bool := m.len == 0

/-- `first_key_value`, `/repo/src/zosdit/map.rs:122-128` -/
def firstKeyValue (m : ZosditMap K V) : Option (K × V) := do
  let (key, valueStore) ← m.inner.head?
  let firstValue ← valueStore.head?
  pure (key, firstValue)

/-- `last_key_value`, `/repo/src/zosdit/map.rs:148-154` -/
def lastKeyValue (m : ZosditMap K V) : Option (K × V) := do
  let (key, valueStore) ← m.inner.getLast?
  let lastValue ← valueStore.getLast?
  pure (key, lastValue)

/-- the cursor of `get_last_value_at_point` and `remove_last_value_at_point`,
`/repo/src/zosdit/map.rs:177-184, 224-231` -/
def lastAtPointCursor (m : ZosditMap K V) (point : I) : BTree.Cursor K (List V) :=
  let cursor := BTree.lowerBound (exclusiveComp point .gt) m.inner
  if cursor.key.isNone then cursor.movePrev else cursor

/-- `get_last_value_at_point`, `/repo/src/zosdit/map.rs:176-190` -/
def getLastValueAtPoint (m : ZosditMap K V) (point : I) : Option V :=
  ((m.lastAtPointCursor point).keyValue.filter (fun e => InclusiveInterval.containsPoint e.1 point)).bind
    (fun e => e.2.getLast?)

/-- `remove_last_value_at_point`, `/repo/src/zosdit/map.rs:223-246` (`value.pop().unwrap()` panics on an empty store;
`self.len` is not changed) -/
def removeLastValueAtPoint (m : ZosditMap K V) (point : I) : Res (ZosditMap K V × Option V) :=
  let cursor := m.lastAtPointCursor point
  match cursor.after with
  | [] => pure (m, none)
  | (key, value) :: rest =>
    if InclusiveInterval.containsPoint key point then do
      let last ← unwrap value.getLast?
      let value := value.dropLast
      let c : BTree.Cursor K (List V) := ⟨cursor.before, (key, value) :: rest⟩
      let c := if value.isEmpty then c.removeCurrent.2 else c
      pure (⟨m.len, c.entries⟩, some last)
    else pure (m, none)

/-- the comparator of `insert_strict_back`, `/repo/src/zosdit/map.rs:290-315` -/
def insertComp (newInterval innerInterval : K) : Res Ordering :=
  let startResult := exclusiveComp (start newInterval) .gt innerInterval
  let endResult := exclusiveComp (stop newInterval) .lt innerInterval
  match startResult, endResult with
  | .gt, .lt => .ok .eq
  | .lt, .lt => .ok .lt
  | .gt, .gt => .ok .gt
  | .lt, .gt => .error .unreachable
  | .eq, .lt => .error .unreachable
  | .gt, .eq => .error .unreachable
  | .eq, .gt => .error .unreachable
  | .eq, .eq => .error .unreachable
  | .lt, .eq => .error .unreachable

/-- `BTreeMap::entry(k, comp).or_default().push(v)`, `/repo/src/zosdit/map.rs:289-317`: the value goes to the back of
the store of a key answering `eq`, or into a new store before the first key answering `lt`. If several (then
neighbouring) keys answer `eq` - possible only after a `cut` has produced identical keys - the one found depends on
the shape of the tree: `pick` says how many of them are passed over. -/
def entryPush (comp : K → Res Ordering) (k : K) (v : V) : Nat → List (K × List V) → Res (List (K × List V))
  | _, [] => .ok [(k, [v])]
  | pick, e :: l => do
    match ← comp e.1 with
    | .gt => do
      let l' ← entryPush comp k v pick l
      pure (e :: l')
    | .eq => do
      let another ← match l with
        | [] => pure false
        | e' :: _ => do pure (decide ((← comp e'.1) = .eq))
      match pick, another with
      | pick + 1, true => do
        let l' ← entryPush comp k v pick l
        pure (e :: l')
      | _, _ => pure ((e.1, e.2 ++ [v]) :: l)
    | .lt => pure ((k, [v]) :: e :: l)

/-- `is_zero_overlap`, `/repo/src/zosdit/map.rs:354-373` -/
def isZeroOverlap (m : ZosditMap K V) (interval : Q) : Res Bool := do
  invalidIntervalPanic interval
  pure (BTree.range (exclusiveComp (start interval) .gt) (exclusiveComp (stop interval) .lt) m.inner).head?.isNone

/-- `insert_strict_back`, `/repo/src/zosdit/map.rs:279-323`; for `pick` see `entryPush` -/
def insertStrictBack (m : ZosditMap K V) (interval : K) (value : V) (pick : Nat) :
    Res (ZosditMap K V × Except (NonZeroOverlapError V) Unit) := do
  invalidIntervalPanic interval
  if !(← m.isZeroOverlap interval) then pure (m, .error ⟨value⟩)
  else
    let inner ← entryPush (insertComp interval) interval value pick m.inner
    pure (⟨m.len + 1, inner⟩, .ok ())

/-- The `while` loop of `cut`, `/repo/src/zosdit/map.rs:437-461`, on the entries at and after the cursor, with the
counter: returns what is in the map from the cursor's position on, the cut-out entries, and the counter. -/
def cutLoop (interval : Q) (len : Nat) : List (K × List V) → Res (List (K × List V) × List (K × V) × Nat)
  | [] => pure ([], [], len)
  | (key, valueStore) :: rest => do
    if !(← InclusiveInterval.overlaps key interval) then pure ((key, valueStore) :: rest, [], len)
    else
      let cutResult ← cutInterval key interval
      let (ins1, len) := match cutResult.beforeCut with
        | some b => ([((ofInterval b : K), valueStore)], len + valueStore.length)
        | none => ([], len)
      let (ins2, len) := match cutResult.afterCut with
        | some a => ([((ofInterval a : K), valueStore)], len + valueStore.length)
        | none => ([], len)
      if len < valueStore.length then .error .overflow
      else
        let len := len - valueStore.length
        let result ← valueStore.mapM (fun v => do pure ((ofInterval (← unwrap cutResult.insideCut) : K), v))
        let (left, result', len) ← cutLoop interval len rest
        pure (ins1 ++ ins2 ++ left, result ++ result', len)

/-- `cut`, `/repo/src/zosdit/map.rs:419-464` -/
def cut (m : ZosditMap K V) (interval : Q) : Res (ZosditMap K V × List (K × V)) := do
  invalidIntervalPanic interval
  let cursor := BTree.upperBound (exclusiveComp (start interval) .lt) m.inner
  let cursor := if cursor.key.isNone then cursor.moveNext else cursor
  let (left, result, len) ← cutLoop interval m.len cursor.after
  pure (⟨len, cursor.before ++ left⟩, result)

/-- `value_store.iter().map(move |value| (interval, value))`. Used at `/repo/src/zosdit/map.rs:514-516, 542-544, 634-636`. -/
def flatten (l : List (K × List V)) : List (K × V) := l.flatMap (fun e => e.2.map (fun v => (e.1, v)))

/-- `overlapping`, `/repo/src/zosdit/map.rs:501-517` -/
def overlapping (m : ZosditMap K V) (interval : Q) : Res (List (K × V)) := do
  invalidIntervalPanic interval
  pure (flatten (BTree.range (inclusiveComp (start interval) .lt) (inclusiveComp (stop interval) .gt) m.inner))

/-- `iter`, `/repo/src/zosdit/map.rs:541-545`, and `into_iter`, `/repo/src/zosdit/map.rs:624-638` -/
def iter (m : ZosditMap K V) : List (K × V) := flatten m.inner

/-- the loop of `from_iter_strict_back`, `/repo/src/zosdit/map.rs:607-609` (`picks i` for the `i`-th insert, see
`entryPush`) -/
def fromIterFrom (m : ZosditMap K V) (picks : Nat → Nat) : List (K × V) → Res (Except (NonZeroOverlapError V) (ZosditMap K V))
  | [] => pure (.ok m)
  | (k, v) :: rest => do
    match ← m.insertStrictBack k v (picks 0) with
    | (_, .error e) => pure (.error e)
    | (m, .ok ()) => fromIterFrom m (fun i => picks (i + 1)) rest

/-- `from_iter_strict_back`, `/repo/src/zosdit/map.rs:603-611` -/
def fromIterStrictBack (l : List (K × V)) (picks : Nat → Nat) : Res (Except (NonZeroOverlapError V) (ZosditMap K V)) :=
  fromIterFrom new picks l

/-- `from_slice_strict_back`, `/repo/src/zosdit/map.rs:571-575` -/
def fromSliceStrictBack (l : List (K × V)) (picks : Nat → Nat) : Res (Except (NonZeroOverlapError V) (ZosditMap K V)) :=
  fromIterStrictBack l picks

end ZosditMap
end Nodit
