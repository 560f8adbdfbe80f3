import Verif.Tree
import Verif.NoditMap
import Verif.Zosdit
import Verif.Gqdit
/-!
# `NoditMap`, `Gqdit` and `ZosditMap` on search trees

`Verif/NoditMap.lean`, `Verif/Gqdit.lean` and `Verif/Zosdit.lean` model the crate over the in-order content of the B-tree. Here the
same functions work on search trees (`Verif/Tree.lean`): every lookup, bound and range is a descent of the tree with the crate's
comparator, and every structural change of the container (insertion, removal, a whole run of cursor edits) leaves a tree whose
shape is decided by an arbitrary `Shape` - so that all re-balancing strategies and node capacities are covered. During a run of cursor
edits (`remove_current`, `insert_before`, `move_next`) no search takes place; the tree is then only its sequence of entries.
`Verif/Props/TreeMapProps.lean` (C91) proves that whole histories give the same results as the models over lists.
-/
namespace Nodit
open PointType InclusiveInterval BTree

/-- How the container arranges a sequence of entries in a tree after its `n`-th change in a call.
Dependency `btree_monstrousity`, no lines in `/repo`. -/
abbrev Shape (α : Type) := Nat → List α → Tree α

/-- The container never loses or reorders entries when it arranges them. An assumption about the dependency, no lines of `/repo`. -/
def Shape.Lawful {α : Type} (ρ : Shape α) : Prop := ∀ n l, (ρ n l).toList = l

namespace BTree
variable {α : Type}

mutual
/-- `BTreeMap::first_key_value`: down the leftmost edges.
Dependency `btree_monstrousity`, no lines in `/repo`. -/
def Tree.first : Tree α → Option α
  | .empty => none
  | .node child rest => (child.first).or rest.firstEntry
/-- the leftmost entry of a node itself.
Dependency `btree_monstrousity`, no lines in `/repo`. -/
def Edges.firstEntry : Edges α → Option α
  | .nil => none
  | .cons e _ _ => some e
end

mutual
/-- `BTreeMap::last_key_value`: down the rightmost edges.
Dependency `btree_monstrousity`, no lines in `/repo`. -/
def Tree.last : Tree α → Option α
  | .empty => none
  | .node child rest => rest.lastIn child.last
/-- the last entry of what is right of `acc`, or `acc`.
Dependency `btree_monstrousity`, no lines in `/repo`. -/
def Edges.lastIn (acc : Option α) : Edges α → Option α
  | .nil => acc
  | .cons e child rest => rest.lastIn ((child.last).or (some e))
end

mutual
/-- `search_tree` with a comparator that may panic: only the entries compared on the way count.
Dependency `btree_monstrousity`, no lines in `/repo`. -/
def Tree.searchRes (comp : α → Res Ordering) : Tree α → Res (Pos α)
  | .empty => .ok (.edge [] [])
  | .node first rest => rest.scanRes comp (first.searchRes comp) first.toList
/-- the scan within a node; `below` is what going down to the child left of the scanned entries gives.
Dependency `btree_monstrousity`, no lines in `/repo`. -/
def Edges.scanRes (comp : α → Res Ordering) (below : Res (Pos α)) (left : List α) : Edges α → Res (Pos α)
  | .nil => below
  | .cons e child rest => do
    match ← comp e with
    | .gt => do pure ((← rest.scanRes comp (child.searchRes comp) child.toList).within (left ++ [e]) [])
    | .eq => pure (.found left e (child.toList ++ rest.toList))
    | .lt => do pure ((← below).within [] (e :: (child.toList ++ rest.toList)))
end
end BTree

/-- `NoditMap` over a tree. `/repo/src/nodit/map.rs:58-62`. -/
structure TreeNodit (K V : Type) where
  tree : Tree (K × V)

namespace TreeNodit
variable {I K Q V : Type} [PointType I] [IntervalType I K] [IntervalType I Q]

/-- what the model over lists sees of it. Relates two models, no lines of `/repo`. -/
def content (t : TreeNodit K V) : NoditMap K V := ⟨t.tree.toList⟩

/-- `new`, `/repo/src/nodit/map.rs:1259-1261` -/
def new : TreeNodit K V := ⟨.empty⟩

/-- `get_key_value(comp)`/`contains_key(comp)` of the container.
Dependency `btree_monstrousity`, no lines in `/repo`. -/
def find (t : TreeNodit K V) (comp : K → Ordering) : Option (K × V) := (t.tree.search (onKey comp)).lookup
/-- `remove(comp)` of the container.
Dependency `btree_monstrousity`, no lines in `/repo`. -/
def remove (ρ : List (K × V) → Tree (K × V)) (t : TreeNodit K V) (comp : K → Ordering) : TreeNodit K V :=
  ⟨ρ (t.tree.search (onKey comp)).removed⟩

/-- `iter_mut`, `/repo/src/nodit/map.rs:1347-1351` -/
def iterMut (ρ : Shape (K × V)) (t : TreeNodit K V) (f : K → V → V) : TreeNodit K V :=
  ⟨ρ 0 (t.tree.toList.map (fun e => (e.1, f e.1 e.2)))⟩

/-- `overlapping`, `/repo/src/nodit/map.rs:153-168` -/
def overlapping (t : TreeNodit K V) (q : Q) : Res (List (K × V)) := do
  invalidIntervalPanic q
  pure (t.tree.range (onKey (overlappingComp (start q))) (onKey (overlappingComp (stop q))))

/-- `overlaps`, `/repo/src/nodit/map.rs:116-123` -/
def overlaps (t : TreeNodit K V) (q : Q) : Res Bool := do
  invalidIntervalPanic q
  let o ← t.overlapping q
  pure o.head?.isSome

/-- `overlapping_mut`, `/repo/src/nodit/map.rs:199-214`: the entries of the range, which starts at the lower edge, are updated -/
def overlappingMut (ρ : Shape (K × V)) (t : TreeNodit K V) (q : Q) (f : K → V → V) : Res (TreeNodit K V) := do
  invalidIntervalPanic q
  let selected := t.tree.range (onKey (overlappingComp (start q))) (onKey (overlappingComp (stop q)))
  let (before, after) := t.tree.lowerEdge (onKey (overlappingComp (start q)))
  pure ⟨ρ 0 (before ++ selected.map (fun e => (e.1, f e.1 e.2)) ++ after.drop selected.length)⟩

/-- `get_gap_at_raw`, `/repo/src/nodit/map.rs:315-331` -/
def getGapAtRaw (t : TreeNodit K V) (point : I) : Res (Interval I) := do
  let lower := cursorBefore (t.tree.upperEdge (onKey (overlappingComp point)))
  let upper := cursorAfter (t.tree.lowerEdge (onKey (overlappingComp point)))
  let s ← match lower.key with
    | none => pure MIN
    | some lower => unwrap (up (stop lower))
  let e ← match upper.key with
    | none => pure MAX
    | some upper => unwrap (down (start upper))
  pure { start := s, stop := e }

/-- `get_key_value_at_point`, `/repo/src/nodit/map.rs:310-314` -/
def getKeyValueAtPoint (t : TreeNodit K V) (point : I) : Res (Except K (K × V)) :=
  match t.find (overlappingComp point) with
  | some e => pure (.ok e)
  | none => do
    let g ← t.getGapAtRaw point
    pure (.error (ofInterval g))

/-- `get_at_point`, `/repo/src/nodit/map.rs:235-239` -/
def getAtPoint (t : TreeNodit K V) (point : I) : Res (Option V) := do
  match ← t.getKeyValueAtPoint point with
  | .ok e => pure (some e.2)
  | .error _ => pure none

/-- `contains_point`, `/repo/src/nodit/map.rs:280-282` -/
def containsPoint (t : TreeNodit K V) (point : I) : Res Bool := do
  match ← t.getKeyValueAtPoint point with
  | .ok _ => pure true
  | .error _ => pure false

/-- `get_at_point_mut`, `/repo/src/nodit/map.rs:257-259` -/
def getAtPointMut (ρ : Shape (K × V)) (t : TreeNodit K V) (point : I) (f : V → V) : TreeNodit K V × Option V :=
  (⟨ρ 0 ((t.tree.search (onKey (overlappingComp point))).modified (fun _ v => f v))⟩, (t.find (overlappingComp point)).map Prod.snd)

/-- `remove_overlapping`, `/repo/src/nodit/map.rs:366-390` -/
def removeOverlapping (ρ : Shape (K × V)) (t : TreeNodit K V) (q : Q) : Res (TreeNodit K V × List (K × V)) := do
  invalidIntervalPanic q
  let cursor := cursorAfter (t.tree.lowerEdge (onKey (overlappingComp (start q))))
  let (removed, left) ← NoditMap.removeLoop q cursor.after
  pure (⟨ρ 0 (cursor.before ++ left)⟩, removed)

/-- `cut`, `/repo/src/nodit/map.rs:430-464` -/
def cut (ρ : Shape (K × V)) (t : TreeNodit K V) (q : Q) : Res (TreeNodit K V × List (K × V)) := do
  invalidIntervalPanic q
  let cursor := cursorAfter (t.tree.lowerEdge (onKey (overlappingComp (start q))))
  let (left, result) ← NoditMap.cutLoop q cursor.after
  pure (⟨ρ 0 (cursor.before ++ left)⟩, result)

/-- `/repo/src/nodit/map.rs:509-514, 597-602` -/
def gapAt (t : TreeNodit K V) (point : I) : Res (Option (Interval I)) :=
  if !(t.find (overlappingComp point)).isSome then do
    let g ← t.getGapAtRaw point
    pure (some g)
  else pure none

/-- `gaps_untrimmed`, `/repo/src/nodit/map.rs:497-551` -/
def gapsUntrimmed (t : TreeNodit K V) (q : Q) : Res (List K) := do
  invalidIntervalPanic q
  let startGap ← t.gapAt (start q)
  let endGap ← t.gapAt (stop q)
  let (startGap, endGap) := match startGap, endGap with
    | some s, some e => if s.start = e.start then (some s, none) else (some s, some e)
    | some s, none => (some s, none)
    | none, some e => (none, some e)
    | none, none => (none, none)
  let overlapping ← t.overlapping q
  let inner ← NoditMap.innerGaps overlapping
  pure ((startGap.map ofInterval).toList ++ inner ++ (endGap.map ofInterval).toList)

/-- `gaps_trimmed`, `/repo/src/nodit/map.rs:585-651` -/
def gapsTrimmed (t : TreeNodit K V) (q : Q) : Res (List K) := do
  invalidIntervalPanic q
  let startGap ← t.gapAt (start q)
  let endGap ← t.gapAt (stop q)
  let (startGap, endGap) : Option (Interval I) × Option (Interval I) := match startGap, endGap with
    | some s, some e =>
      if s.start = e.start then (some { start := start q, stop := stop q }, none)
      else (some { s with start := start q }, some { e with stop := stop q })
    | some s, none => (some { s with start := start q }, none)
    | none, some e => (none, some { e with stop := stop q })
    | none, none => (none, none)
  let overlapping ← t.overlapping q
  let inner ← NoditMap.innerGaps overlapping
  pure ((startGap.map ofInterval).toList ++ inner ++ (endGap.map ofInterval).toList)

/-- `contains_interval`, `/repo/src/nodit/map.rs:678-686` -/
def containsInterval (t : TreeNodit K V) (q : Q) : Res Bool := do
  invalidIntervalPanic q
  let g ← t.gapsUntrimmed q
  pure g.head?.isNone

/-- `insert_unchecked`, `/repo/src/nodit/map.rs:729-731` -/
def insertUnchecked (ρ : List (K × V) → Tree (K × V)) (t : TreeNodit K V) (k : K) (v : V) : TreeNodit K V :=
  ⟨ρ ((t.tree.search (onKey (startsComp k))).inserted k v)⟩

/-- `insert_strict`, `/repo/src/nodit/map.rs:714-728` -/
def insertStrict (ρ : Shape (K × V)) (t : TreeNodit K V) (k : K) (v : V) :
    Res (TreeNodit K V × Except (OverlapError V) Unit) := do
  invalidIntervalPanic k
  if ← t.overlaps k then pure (t, .error ⟨v⟩)
  else pure (t.insertUnchecked (ρ 0) k v, .ok ())

/-- `insert_merge_with_comps`, `/repo/src/nodit/map.rs:733-777` -/
def insertMergeWithComps (ρ : Shape (K × V)) (t : TreeNodit K V) (k : K) (v : V)
    (getStart getEnd : TreeNodit K V → V → Option K)
    (removeStart removeEnd : TreeNodit K V → V → TreeNodit K V) : Res (TreeNodit K V × K) := do
  invalidIntervalPanic k
  let matchingStart := getStart t v
  let matchingEnd := getEnd t v
  let returning : K := match matchingStart, matchingEnd with
    | some ms, some me => ofInterval { start := start ms, stop := stop me }
    | some ms, none => ofInterval { start := start ms, stop := stop k }
    | none, some me => ofInterval { start := start k, stop := stop me }
    | none, none => k
  let (t, _) ← t.removeOverlapping ρ k
  let t := removeStart t v
  let t := removeEnd t v
  pure (t.insertUnchecked (ρ 1) returning v, returning)

/-- `insert_merge_touching`, `/repo/src/nodit/map.rs:832-867` -/
def insertMergeTouching (ρ : Shape (K × V)) (t : TreeNodit K V) (k : K) (v : V) :
    Res (TreeNodit K V × Except (OverlapError V) K) := do
  invalidIntervalPanic k
  if ← t.overlaps k then pure (t, .error ⟨v⟩)
  else
    let (t, r) ← t.insertMergeWithComps ρ k v
      (fun t _ => (t.find (touchingStartComp (start k))).map Prod.fst)
      (fun t _ => (t.find (touchingEndComp (stop k))).map Prod.fst)
      (fun t _ => t.remove (ρ 2) (touchingStartComp (start k)))
      (fun t _ => t.remove (ρ 3) (touchingEndComp (stop k)))
    pure (t, .ok r)

/-- `get_start` of `insert_merge_touching_if_values_equal`, `/repo/src/nodit/map.rs:934-943` -/
def getStartEq [BEq V] (k : K) (t : TreeNodit K V) (v : V) : Option K :=
  ((t.find (touchingStartComp (start k))).filter (fun e => e.2 == v)).map Prod.fst
/-- `get_end` of `insert_merge_touching_if_values_equal`, `/repo/src/nodit/map.rs:944-953` -/
def getEndEq [BEq V] (k : K) (t : TreeNodit K V) (v : V) : Option K :=
  ((t.find (touchingEndComp (stop k))).filter (fun e => e.2 == v)).map Prod.fst

/-- `insert_merge_touching_if_values_equal`, `/repo/src/nodit/map.rs:920-971` -/
def insertMergeTouchingIfValuesEqual [BEq V] (ρ : Shape (K × V)) (t : TreeNodit K V) (k : K) (v : V) :
    Res (TreeNodit K V × Except (OverlapError V) K) := do
  invalidIntervalPanic k
  if ← t.overlaps k then pure (t, .error ⟨v⟩)
  else
    let (t, r) ← t.insertMergeWithComps ρ k v
      (getStartEq k) (getEndEq k)
      (fun t v => if (getStartEq k t v).isSome then t.remove (ρ 2) (touchingStartComp (start k)) else t)
      (fun t v => if (getEndEq k t v).isSome then t.remove (ρ 3) (touchingEndComp (stop k)) else t)
    pure (t, .ok r)

/-- `insert_merge_overlapping`, `/repo/src/nodit/map.rs:1021-1044` -/
def insertMergeOverlapping (ρ : Shape (K × V)) (t : TreeNodit K V) (k : K) (v : V) : Res (TreeNodit K V × K) := do
  invalidIntervalPanic k
  t.insertMergeWithComps ρ k v
    (fun t _ => (t.find (overlappingComp (start k))).map Prod.fst)
    (fun t _ => (t.find (overlappingComp (stop k))).map Prod.fst)
    (fun t _ => t)
    (fun t _ => t)

/-- `insert_merge_touching_or_overlapping`, `/repo/src/nodit/map.rs:1094-1133` -/
def insertMergeTouchingOrOverlapping (ρ : Shape (K × V)) (t : TreeNodit K V) (k : K) (v : V) :
    Res (TreeNodit K V × K) := do
  invalidIntervalPanic k
  t.insertMergeWithComps ρ k v
    (fun t _ => ((t.find (touchingStartComp (start k))).map Prod.fst).or ((t.find (overlappingComp (start k))).map Prod.fst))
    (fun t _ => ((t.find (touchingEndComp (stop k))).map Prod.fst).or ((t.find (overlappingComp (stop k))).map Prod.fst))
    (fun t _ => t.remove (ρ 2) (touchingStartComp (start k)))
    (fun t _ => t.remove (ρ 3) (touchingEndComp (stop k)))

/-- `insert_overwrite`, `/repo/src/nodit/map.rs:1166-1179` -/
def insertOverwrite (ρ : Shape (K × V)) (t : TreeNodit K V) (k : K) (v : V) : Res (TreeNodit K V × List (K × V)) := do
  invalidIntervalPanic k
  let (t, out) ← t.cut ρ k
  pure (t.insertUnchecked (ρ 1) k v, out)

end TreeNodit

/-- `Gqdit` over a tree. `/repo/src/gqdit/mod.rs:66-69`. -/
structure TreeGqdit (K D : Type) where
  inner : TreeNodit K (Finset D)

namespace TreeGqdit
variable {I K Q D : Type} [PointType I] [IntervalType I K] [IntervalType I Q] [DecidableEq D]

/-- what the model over lists sees of it. Relates two models, no lines of `/repo`. -/
def content (g : TreeGqdit K D) : Gqdit K D := ⟨g.inner.content⟩

/-- `new`, `/repo/src/gqdit/mod.rs:85-87, 548-559` -/
def new (ρ : Shape (K × Finset D)) : Res (TreeGqdit K D) := do
  let full ← uu
  match ← (TreeNodit.new : TreeNodit K (Finset D)).insertStrict ρ (ofInterval full) ∅ with
  | (map, .ok ()) => pure ⟨map⟩
  | (_, .error _) => .error .explicit

/-- `gaps_no_identifier`, `/repo/src/gqdit/mod.rs:121-138` -/
def gapsNoIdentifier (g : TreeGqdit K D) (q : Q) : Res (List K) := do
  invalidIntervalPanic q
  let o ← g.inner.overlapping q
  pure ((o.filter (fun e => e.2 = ∅)).map Prod.fst)

/-- `expand_gaps_at_point_right`, `/repo/src/gqdit/mod.rs:457-471` -/
def expandGapsAtPointRight (g : TreeGqdit K D) (identifier : D) (point : I) : Res (Option K) := do
  let q ← iu point
  let overlappingRight ← g.inner.overlapping q
  let run := (overlappingRight.takeWhile (fun e => validIdentifier identifier e.2)).map Prod.fst
  let r ← coalesce (fun x y => do pure (.ok (ofInterval (← mergeOrdered x y) : K))) run
  pure r.head?

/-- `expand_gaps_at_point_left`, `/repo/src/gqdit/mod.rs:472-490` -/
def expandGapsAtPointLeft (g : TreeGqdit K D) (identifier : D) (point : I) : Res (Option K) := do
  let q ← ui point
  let overlappingLeft ← g.inner.overlapping q
  let run := (overlappingLeft.reverse.takeWhile (fun e => validIdentifier identifier e.2)).map Prod.fst
  let r ← coalesce (fun x y => do pure (.ok (ofInterval (← mergeOrdered y x) : K))) run
  pure r.head?

/-- `gaps_with_identifier`, `/repo/src/gqdit/mod.rs:172-226` -/
def gapsWithIdentifier (g : TreeGqdit K D) (identifier : D) (q : Q) : Res (List K) := do
  invalidIntervalPanic q
  let o ← g.inner.overlapping q
  let validGaps := (o.filter (fun e => validIdentifier identifier e.2)).map Prod.fst
  let nonEndGaps := validGaps.filter (fun gap =>
    !InclusiveInterval.containsPoint gap (start q) && !InclusiveInterval.containsPoint gap (stop q))
  let leftGap ← g.expandGapsAtPointLeft identifier (start q)
  let rightGap ← g.expandGapsAtPointRight identifier (stop q)
  let (leftGap, rightGap) ← match leftGap, rightGap with
    | some left, some right =>
      if overlapsOrdered left right then do
        pure (some (ofInterval (← mergeOrdered left right) : K), none)
      else pure (some left, some right)
    | l, r => pure (l, r)
  coalesce
    (fun x y => do
      if ← touchesOrdered x y then pure (.ok (ofInterval (← mergeOrdered x y) : K)) else pure (.error (x, y)))
    (leftGap.toList ++ nonEndGaps ++ rightGap.toList)

/-- The `for` loops of `insert`, `cut_with_identifiers` and `cut_all_identifiers`, `/repo/src/gqdit/mod.rs:272-286, 323-337, 389-402`;
`ρ i` for the `i`-th piece -/
def putBack (ρ : Nat → Shape (K × Finset D)) (f : Finset D → Finset D) (m : TreeNodit K (Finset D)) :
    List (K × Finset D) → Res (TreeNodit K (Finset D))
  | [] => pure m
  | (k, ids) :: rest => do
    match ← m.insertMergeTouchingIfValuesEqual (ρ 0) k (f ids) with
    | (m, .ok _) => putBack (fun i => ρ (i + 1)) f m rest
    | (_, .error _) => .error .explicit

/-- `cut_with_identifiers`, `/repo/src/gqdit/mod.rs:259-287` -/
def cutWithIdentifiers (ρ : Nat → Shape (K × Finset D)) (g : TreeGqdit K D) (identifiers : Finset D) (q : Q) : Res (TreeGqdit K D) := do
  invalidIntervalPanic q
  if identifiers = ∅ then pure g
  else
    let (m, cut) ← g.inner.cut (ρ 0) q
    let m ← putBack (fun i => ρ (i + 1)) (fun ids => ids.filter (fun i => i ∉ identifiers)) m cut
    pure ⟨m⟩

/-- `cut_all_identifiers`, `/repo/src/gqdit/mod.rs:317-338` -/
def cutAllIdentifiers (ρ : Nat → Shape (K × Finset D)) (g : TreeGqdit K D) (q : Q) : Res (TreeGqdit K D) := do
  invalidIntervalPanic q
  let (m, cut) ← g.inner.cut (ρ 0) q
  let m ← putBack (fun i => ρ (i + 1)) (fun _ => ∅) m cut
  pure ⟨m⟩

/-- `insert`, `/repo/src/gqdit/mod.rs:367-403` -/
def insert (ρ : Nat → Shape (K × Finset D)) (g : TreeGqdit K D) (identifiers : Finset D) (interval : K) : Res (TreeGqdit K D) := do
  invalidIntervalPanic interval
  if identifiers = ∅ then pure g
  else
    let (m, cut) ← g.inner.cut (ρ 0) interval
    let m ← putBack (fun i => ρ (i + 1)) (fun ids => ids ∪ identifiers) m cut
    pure ⟨m⟩

/-- The loop of `append`, `/repo/src/gqdit/mod.rs:425-427`; `ρ i` for the `i`-th entry -/
def insertAll (ρ : Nat → Nat → Shape (K × Finset D)) (g : TreeGqdit K D) : List (K × Finset D) → Res (TreeGqdit K D)
  | [] => pure g
  | (k, ids) :: rest => do
    let g ← g.insert (ρ 0) ids k
    insertAll (fun i => ρ (i + 1)) g rest

/-- `append`, `/repo/src/gqdit/mod.rs:424-428`; `ρ' 0` for the change of `other` -/
def append (ρ : Nat → Nat → Shape (K × Finset D)) (ρ' : Shape (K × Finset D)) (g other : TreeGqdit K D) :
    Res (TreeGqdit K D × TreeGqdit K D) := do
  let full : Interval I ← uu
  let (otherInner, removed) ← other.inner.removeOverlapping ρ' full
  let g ← g.insertAll ρ removed
  pure (g, ⟨otherInner⟩)

/-- `identifiers_at_point`, `/repo/src/gqdit/mod.rs:450-455` -/
def identifiersAtPoint (g : TreeGqdit K D) (point : I) : Res (Finset D) := do
  pure ((← g.inner.getAtPoint point).getD ∅)
end TreeGqdit

/-- `ZosditMap` over a tree. `/repo/src/zosdit/map.rs:61-67`. -/
structure TreeZosdit (K V : Type) where
  len : Nat
  tree : Tree (K × List V)

namespace TreeZosdit
variable {I K Q V : Type} [PointType I] [IntervalType I K] [IntervalType I Q]

/-- what the model over lists sees of it. Relates two models, no lines of `/repo`. -/
def content (t : TreeZosdit K V) : ZosditMap K V := ⟨t.len, t.tree.toList⟩

/-- `new`, `/repo/src/zosdit/map.rs:91-93` -/
def new : TreeZosdit K V := ⟨0, .empty⟩

/-- `first_key_value`, `/repo/src/zosdit/map.rs:122-128` -/
def firstKeyValue (t : TreeZosdit K V) : Option (K × V) := do
  let (key, valueStore) ← t.tree.first
  let firstValue ← valueStore.head?
  pure (key, firstValue)

/-- `last_key_value`, `/repo/src/zosdit/map.rs:148-154` -/
def lastKeyValue (t : TreeZosdit K V) : Option (K × V) := do
  let (key, valueStore) ← t.tree.last
  let lastValue ← valueStore.getLast?
  pure (key, lastValue)

/-- the cursor of `get_last_value_at_point` and `remove_last_value_at_point`, `/repo/src/zosdit/map.rs:177-184, 224-231` -/
def lastAtPointCursor (t : TreeZosdit K V) (point : I) : BTree.Cursor K (List V) :=
  let cursor := cursorAfter (t.tree.lowerEdge (onKey (exclusiveComp point .gt)))
  if cursor.key.isNone then cursor.movePrev else cursor

/-- `get_last_value_at_point`, `/repo/src/zosdit/map.rs:176-190` -/
def getLastValueAtPoint (t : TreeZosdit K V) (point : I) : Option V :=
  ((t.lastAtPointCursor point).keyValue.filter (fun e => InclusiveInterval.containsPoint e.1 point)).bind
    (fun e => e.2.getLast?)

/-- `remove_last_value_at_point`, `/repo/src/zosdit/map.rs:223-246` -/
def removeLastValueAtPoint (ρ : Shape (K × List V)) (t : TreeZosdit K V) (point : I) : Res (TreeZosdit K V × Option V) :=
  let cursor := t.lastAtPointCursor point
  match cursor.after with
  | [] => pure (t, none)
  | (key, value) :: rest =>
    if InclusiveInterval.containsPoint key point then do
      let last ← unwrap value.getLast?
      let value := value.dropLast
      let c : BTree.Cursor K (List V) := ⟨cursor.before, (key, value) :: rest⟩
      let c := if value.isEmpty then c.removeCurrent.2 else c
      pure (⟨t.len, ρ 0 c.entries⟩, some last)
    else pure (t, none)

/-- `is_zero_overlap`, `/repo/src/zosdit/map.rs:354-373` -/
def isZeroOverlap (t : TreeZosdit K V) (interval : Q) : Res Bool := do
  invalidIntervalPanic interval
  pure (t.tree.range (onKey (exclusiveComp (start interval) .gt)) (onKey (exclusiveComp (stop interval) .lt))).head?.isNone

/-- what `entry(..).or_default().push(v)` does where the search ended.
`zosdit/map.rs`, `insert_strict_back`, see there for the lines. -/
def pushAt (k : K) (v : V) : Pos (K × List V) → List (K × List V)
  | .found b e a => b ++ (e.1, e.2 ++ [v]) :: a
  | .edge b a => b ++ (k, [v]) :: a

/-- `insert_strict_back`, `/repo/src/zosdit/map.rs:279-323`: the store found by descending the tree gets the value -/
def insertStrictBack (ρ : Shape (K × List V)) (t : TreeZosdit K V) (interval : K) (value : V) :
    Res (TreeZosdit K V × Except (NonZeroOverlapError V) Unit) := do
  invalidIntervalPanic interval
  if !(← t.isZeroOverlap interval) then pure (t, .error ⟨value⟩)
  else
    let pos ← t.tree.searchRes (fun e => ZosditMap.insertComp interval e.1)
    pure (⟨t.len + 1, ρ 0 (pushAt interval value pos)⟩, .ok ())

/-- `cut`, `/repo/src/zosdit/map.rs:419-464` -/
def cut (ρ : Shape (K × List V)) (t : TreeZosdit K V) (interval : Q) : Res (TreeZosdit K V × List (K × V)) := do
  invalidIntervalPanic interval
  let cursor := cursorBefore (t.tree.upperEdge (onKey (exclusiveComp (start interval) .lt)))
  let cursor := if cursor.key.isNone then cursor.moveNext else cursor
  let (left, result, len) ← ZosditMap.cutLoop interval t.len cursor.after
  pure (⟨len, ρ 0 (cursor.before ++ left)⟩, result)

/-- `overlapping`, `/repo/src/zosdit/map.rs:501-517` -/
def overlapping (t : TreeZosdit K V) (interval : Q) : Res (List (K × V)) := do
  invalidIntervalPanic interval
  pure (ZosditMap.flatten (t.tree.range (onKey (inclusiveComp (start interval) .lt)) (onKey (inclusiveComp (stop interval) .gt))))
end TreeZosdit
end Nodit
