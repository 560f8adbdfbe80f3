import Verif.IntervalOps
import Verif.BTree
/-!
# `NoditMap`

Model of `/repo/src/nodit/map.rs`.
-/
namespace Nodit
open PointType InclusiveInterval

/-- `struct NoditMap<I, K, V>`, `/repo/src/nodit/map.rs:58-62`; `inner` is the in-order content of the
B-tree. -/
structure NoditMap (K V : Type) where
  inner : List (K × V)
deriving DecidableEq, Repr

/-- `struct OverlapError<V>`, `/repo/src/nodit/map.rs:64-70` -/
structure OverlapError (V : Type) where
  value : V
deriving DecidableEq, Repr

/-- `Itertools::tuple_windows` for pairs. Used at `/repo/src/nodit/map.rs:536, 636`. -/
def tupleWindows {α : Type} : List α → List (α × α)
  | a :: b :: l => (a, b) :: tupleWindows (b :: l)
  | _ => []

namespace NoditMap
variable {I K Q V : Type} [PointType I] [IntervalType I K] [IntervalType I Q]

/-- `new`/`default`, `/repo/src/nodit/map.rs:1259-1261, 1427-1434` -/
def new : NoditMap K V := ⟨[]⟩
/-- `len`, `/repo/src/nodit/map.rs:1276-1278` -/
def len (m : NoditMap K V) : Nat := m.inner.length
/-- `is_empty`, `/repo/src/nodit/map.rs:1294-1296` -/
def isEmpty (m : NoditMap K V) : Bool := m.inner.isEmpty
/-- `iter`, `/repo/src/nodit/map.rs:1320-1322` -/
def iter (m : NoditMap K V) : List (K × V) := m.inner
/-- `into_iter`, `/repo/src/nodit/map.rs:1398-1425` -/
def intoIter (m : NoditMap K V) : List (K × V) := m.inner
/-- `iter_mut` with the caller applying `f` to every value, `/repo/src/nodit/map.rs:1347-1351` -/
def iterMut (m : NoditMap K V) (f : K → V → V) : NoditMap K V :=
  ⟨m.inner.map (fun e => (e.1, f e.1 e.2))⟩
/-- `first_key_value`, `/repo/src/nodit/map.rs:1369-1371` -/
def firstKeyValue (m : NoditMap K V) : Option (K × V) := m.inner.head?
/-- `last_key_value`, `/repo/src/nodit/map.rs:1391-1393` -/
def lastKeyValue (m : NoditMap K V) : Option (K × V) := m.inner.getLast?

/-- `overlapping`, `/repo/src/nodit/map.rs:153-168` -/
def overlapping (m : NoditMap K V) (q : Q) : Res (List (K × V)) := do
  invalidIntervalPanic q
  pure (BTree.range (overlappingComp (start q)) (overlappingComp (stop q)) m.inner)

/-- `overlaps`, `/repo/src/nodit/map.rs:116-123` -/
def overlaps (m : NoditMap K V) (q : Q) : Res Bool := do
  invalidIntervalPanic q
  let o ← m.overlapping q
  pure o.head?.isSome

/-- `overlapping_mut` with the caller applying `f` to every value, `/repo/src/nodit/map.rs:199-214` -/
def overlappingMut (m : NoditMap K V) (q : Q) (f : K → V → V) : Res (NoditMap K V) := do
  invalidIntervalPanic q
  pure ⟨BTree.rangeMut (overlappingComp (start q)) (overlappingComp (stop q)) f m.inner⟩

/-- `get_gap_at_raw`, `/repo/src/nodit/map.rs:315-331` -/
def getGapAtRaw (m : NoditMap K V) (point : I) : Res (Interval I) := do
  let lower := BTree.upperBound (overlappingComp point) m.inner
  let upper := BTree.lowerBound (overlappingComp point) m.inner
  let s ← match lower.key with
    | none => pure MIN
    | some lower => unwrap (up (stop lower))
  let e ← match upper.key with
    | none => pure MAX
    | some upper => unwrap (down (start upper))
  pure { start := s, stop := e }

/-- `get_key_value_at_point`, `/repo/src/nodit/map.rs:310-314`. `Except.ok`/`.error` inside is the Rust
`Result`; the outer `Res` is the panic layer. -/
def getKeyValueAtPoint (m : NoditMap K V) (point : I) : Res (Except K (K × V)) :=
  match BTree.find (overlappingComp point) m.inner with
  | some e => pure (.ok e)
  | none => do
    let g ← m.getGapAtRaw point
    pure (.error (ofInterval g))

/-- `get_at_point`, `/repo/src/nodit/map.rs:235-239` -/
def getAtPoint (m : NoditMap K V) (point : I) : Res (Option V) := do
  match ← m.getKeyValueAtPoint point with
  | .ok e => pure (some e.2)
  | .error _ => pure none

/-- `contains_point`, `/repo/src/nodit/map.rs:280-282` -/
def containsPoint (m : NoditMap K V) (point : I) : Res Bool := do
  match ← m.getKeyValueAtPoint point with
  | .ok _ => pure true
  | .error _ => pure false

/-- `get_at_point_mut` with the caller applying `f` to the value, `/repo/src/nodit/map.rs:257-259`. The
second component is the value the returned reference points at, before the update. -/
def getAtPointMut (m : NoditMap K V) (point : I) (f : V → V) : NoditMap K V × Option V :=
  (⟨BTree.modify (overlappingComp point) (fun _ v => f v) m.inner⟩,
   (BTree.find (overlappingComp point) m.inner).map Prod.snd)

/-- The `while` loop of `remove_overlapping`, `/repo/src/nodit/map.rs:382-387`, on the entries at and after
the cursor; returns the removed entries and the entries left. -/
def removeLoop (q : Q) : List (K × V) → Res (List (K × V) × List (K × V))
  | [] => pure ([], [])
  | e :: rest => do
    if ← InclusiveInterval.overlaps q e.1 then
      let (removed, left) ← removeLoop q rest
      pure (e :: removed, left)
    else pure ([], e :: rest)

/-- `remove_overlapping`, `/repo/src/nodit/map.rs:366-390` -/
def removeOverlapping (m : NoditMap K V) (q : Q) : Res (NoditMap K V × List (K × V)) := do
  invalidIntervalPanic q
  let cursor := BTree.lowerBound (overlappingComp (start q)) m.inner
  let (removed, left) ← removeLoop q cursor.after
  pure (⟨cursor.before ++ left⟩, removed)

/-- The `while` loop of `cut`, `/repo/src/nodit/map.rs:444-461`, on the entries at and after the cursor:
returns the entries from the cursor's original position on (the `insert_before`s and what is left), and the
cut-out entries. -/
def cutLoop (q : Q) : List (K × V) → Res (List (K × V) × List (K × V))
  | [] => pure ([], [])
  | (key, value) :: rest => do
    if !(← InclusiveInterval.overlaps key q) then pure ((key, value) :: rest, [])
    else
      let cutResult ← cutInterval key q
      let ins1 := match cutResult.beforeCut with
        | some b => [(ofInterval b, value)]
        | none => []
      let ins2 := match cutResult.afterCut with
        | some a => [(ofInterval a, value)]
        | none => []
      let inside ← unwrap cutResult.insideCut
      let (left, result) ← cutLoop q rest
      pure (ins1 ++ ins2 ++ left, (ofInterval inside, value) :: result)

/-- `cut`, `/repo/src/nodit/map.rs:430-464` -/
def cut (m : NoditMap K V) (q : Q) : Res (NoditMap K V × List (K × V)) := do
  invalidIntervalPanic q
  let cursor := BTree.lowerBound (overlappingComp (start q)) m.inner
  let (left, result) ← cutLoop q cursor.after
  pure (⟨cursor.before ++ left⟩, result)

/-- The inner gaps of `gaps_untrimmed`/`gaps_trimmed`, `/repo/src/nodit/map.rs:531-543, 631-643` -/
def innerGaps (overlapping : List (K × V)) : Res (List K) := do
  let gs ← (tupleWindows (overlapping.map (fun e => (start e.1, stop e.1)))).mapM
    (fun w => do
      let s ← unwrap (up w.1.2)
      let e ← unwrap (down w.2.1)
      pure (ofInterval { start := s, stop := e } : K))
  pure (gs.filter (fun k => isValid k))

/-- `(!self.inner.contains_key(overlapping_comp(point))).then(|| self.get_gap_at_raw(point))`,
`/repo/src/nodit/map.rs:509-514, 597-602` -/
def gapAt (m : NoditMap K V) (point : I) : Res (Option (Interval I)) :=
  if !(BTree.find (overlappingComp point) m.inner).isSome then do
    let g ← m.getGapAtRaw point
    pure (some g)
  else pure none

/-- `gaps_untrimmed`, `/repo/src/nodit/map.rs:497-551` (all elements of the lazy iterator) -/
def gapsUntrimmed (m : NoditMap K V) (q : Q) : Res (List K) := do
  invalidIntervalPanic q
  let startGap ← m.gapAt (start q)
  let endGap ← m.gapAt (stop q)
  let (startGap, endGap) := match startGap, endGap with
    | some s, some e => if s.start = e.start then (some s, none) else (some s, some e)
    | some s, none => (some s, none)
    | none, some e => (none, some e)
    | none, none => (none, none)
  let overlapping ← m.overlapping q
  let inner ← innerGaps overlapping
  pure ((startGap.map ofInterval).toList ++ inner ++ (endGap.map ofInterval).toList)

/-- `gaps_trimmed`, `/repo/src/nodit/map.rs:585-651` (all elements of the lazy iterator) -/
def gapsTrimmed (m : NoditMap K V) (q : Q) : Res (List K) := do
  invalidIntervalPanic q
  let startGap ← m.gapAt (start q)
  let endGap ← m.gapAt (stop q)
  let (startGap, endGap) : Option (Interval I) × Option (Interval I) := match startGap, endGap with
    | some s, some e =>
      if s.start = e.start then (some { start := start q, stop := stop q }, none)
      else (some { s with start := start q }, some { e with stop := stop q })
    | some s, none => (some { s with start := start q }, none)
    | none, some e => (none, some { e with stop := stop q })
    | none, none => (none, none)
  let overlapping ← m.overlapping q
  let inner ← innerGaps overlapping
  pure ((startGap.map ofInterval).toList ++ inner ++ (endGap.map ofInterval).toList)

/-- `contains_interval`, `/repo/src/nodit/map.rs:678-686` -/
def containsInterval (m : NoditMap K V) (q : Q) : Res Bool := do
  invalidIntervalPanic q
  let g ← m.gapsUntrimmed q
  pure g.head?.isNone

/-- `insert_unchecked`, `/repo/src/nodit/map.rs:729-731` -/
def insertUnchecked (m : NoditMap K V) (k : K) (v : V) : NoditMap K V :=
  ⟨BTree.insert (startsComp k) k v m.inner⟩

/-- `insert_strict`, `/repo/src/nodit/map.rs:714-728` -/
def insertStrict (m : NoditMap K V) (k : K) (v : V) :
    Res (NoditMap K V × Except (OverlapError V) Unit) := do
  invalidIntervalPanic k
  if ← m.overlaps k then pure (m, .error ⟨v⟩)
  else pure (m.insertUnchecked k v, .ok ())

/-- `insert_merge_with_comps`, `/repo/src/nodit/map.rs:733-777` -/
def insertMergeWithComps (m : NoditMap K V) (k : K) (v : V)
    (getStart getEnd : NoditMap K V → V → Option K)
    (removeStart removeEnd : NoditMap K V → V → NoditMap K V) : Res (NoditMap K V × K) := do
  invalidIntervalPanic k
  let matchingStart := getStart m v
  let matchingEnd := getEnd m v
  let returning : K := match matchingStart, matchingEnd with
    | some ms, some me => ofInterval { start := start ms, stop := stop me }
    | some ms, none => ofInterval { start := start ms, stop := stop k }
    | none, some me => ofInterval { start := start k, stop := stop me }
    | none, none => k
  let (m, _) ← m.removeOverlapping k
  let m := removeStart m v
  let m := removeEnd m v
  pure (m.insertUnchecked returning v, returning)

/-- `insert_merge_touching`, `/repo/src/nodit/map.rs:832-867` -/
def insertMergeTouching (m : NoditMap K V) (k : K) (v : V) :
    Res (NoditMap K V × Except (OverlapError V) K) := do
  invalidIntervalPanic k
  if ← m.overlaps k then pure (m, .error ⟨v⟩)
  else
    let (m, r) ← m.insertMergeWithComps k v
      (fun m _ => (BTree.find (touchingStartComp (start k)) m.inner).map Prod.fst)
      (fun m _ => (BTree.find (touchingEndComp (stop k)) m.inner).map Prod.fst)
      (fun m _ => ⟨BTree.remove (touchingStartComp (start k)) m.inner⟩)
      (fun m _ => ⟨BTree.remove (touchingEndComp (stop k)) m.inner⟩)
    pure (m, .ok r)

/-- `get_start` of `insert_merge_touching_if_values_equal`, `/repo/src/nodit/map.rs:934-943` -/
def getStartEq [BEq V] (k : K) (m : NoditMap K V) (v : V) : Option K :=
  ((BTree.find (touchingStartComp (start k)) m.inner).filter (fun e => e.2 == v)).map Prod.fst
/-- `get_end` of `insert_merge_touching_if_values_equal`, `/repo/src/nodit/map.rs:944-953` -/
def getEndEq [BEq V] (k : K) (m : NoditMap K V) (v : V) : Option K :=
  ((BTree.find (touchingEndComp (stop k)) m.inner).filter (fun e => e.2 == v)).map Prod.fst

/-- `insert_merge_touching_if_values_equal`, `/repo/src/nodit/map.rs:920-971` -/
def insertMergeTouchingIfValuesEqual [BEq V] (m : NoditMap K V) (k : K) (v : V) :
    Res (NoditMap K V × Except (OverlapError V) K) := do
  invalidIntervalPanic k
  if ← m.overlaps k then pure (m, .error ⟨v⟩)
  else
    let (m, r) ← m.insertMergeWithComps k v
      (getStartEq k) (getEndEq k)
      (fun m v => if (getStartEq k m v).isSome then
          ⟨BTree.remove (touchingStartComp (start k)) m.inner⟩ else m)
      (fun m v => if (getEndEq k m v).isSome then
          ⟨BTree.remove (touchingEndComp (stop k)) m.inner⟩ else m)
    pure (m, .ok r)

/-- `insert_merge_overlapping`, `/repo/src/nodit/map.rs:1021-1044` -/
def insertMergeOverlapping (m : NoditMap K V) (k : K) (v : V) : Res (NoditMap K V × K) := do
  invalidIntervalPanic k
  m.insertMergeWithComps k v
    (fun m _ => (BTree.find (overlappingComp (start k)) m.inner).map Prod.fst)
    (fun m _ => (BTree.find (overlappingComp (stop k)) m.inner).map Prod.fst)
    (fun m _ => m)
    (fun m _ => m)

/-- `insert_merge_touching_or_overlapping`, `/repo/src/nodit/map.rs:1094-1133` -/
def insertMergeTouchingOrOverlapping (m : NoditMap K V) (k : K) (v : V) :
    Res (NoditMap K V × K) := do
  invalidIntervalPanic k
  m.insertMergeWithComps k v
    (fun m _ => ((BTree.find (touchingStartComp (start k)) m.inner).map Prod.fst).or
      ((BTree.find (overlappingComp (start k)) m.inner).map Prod.fst))
    (fun m _ => ((BTree.find (touchingEndComp (stop k)) m.inner).map Prod.fst).or
      ((BTree.find (overlappingComp (stop k)) m.inner).map Prod.fst))
    (fun m _ => ⟨BTree.remove (touchingStartComp (start k)) m.inner⟩)
    (fun m _ => ⟨BTree.remove (touchingEndComp (stop k)) m.inner⟩)

/-- `insert_overwrite`, `/repo/src/nodit/map.rs:1166-1179` -/
def insertOverwrite (m : NoditMap K V) (k : K) (v : V) :
    Res (NoditMap K V × List (K × V)) := do
  invalidIntervalPanic k
  let (m, out) ← m.cut k
  pure (m.insertUnchecked k v, out)

/-- The loop of `from_iter_strict`, `/repo/src/nodit/map.rs:1243-1246` -/
def fromIterStrictFrom (m : NoditMap K V) :
    List (K × V) → Res (Except (OverlapError V) (NoditMap K V))
  | [] => pure (.ok m)
  | (k, v) :: rest => do
    match ← m.insertStrict k v with
    | (_, .error e) => pure (.error e)
    | (m, .ok ()) => fromIterStrictFrom m rest

/-- `from_iter_strict`, `/repo/src/nodit/map.rs:1239-1247` -/
def fromIterStrict (l : List (K × V)) : Res (Except (OverlapError V) (NoditMap K V)) :=
  fromIterStrictFrom new l

/-- `from_slice_strict`, `/repo/src/nodit/map.rs:1206-1210` -/
def fromSliceStrict (l : List (K × V)) : Res (Except (OverlapError V) (NoditMap K V)) :=
  fromIterStrict l

end NoditMap
end Nodit
