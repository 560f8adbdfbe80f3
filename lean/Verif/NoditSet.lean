import Verif.NoditMap
/-!
# `NoditSet`

Model of `/repo/src/nodit/set.rs`, a wrapper around `NoditMap<I, K, ()>`.
-/
namespace Nodit

/-- `struct NoditSet<I, K>`, `/repo/src/nodit/set.rs:22-25` -/
structure NoditSet (K : Type) where
  inner : NoditMap K Unit
deriving DecidableEq, Repr

namespace NoditSet
variable {I K Q : Type} [PointType I] [IntervalType I K] [IntervalType I Q]

/-- `overlaps`, `/repo/src/nodit/set.rs:33-38` -/
def overlaps (s : NoditSet K) (q : Q) : Res Bool := s.inner.overlaps q
/-- `overlapping`, `/repo/src/nodit/set.rs:40-48` -/
def overlapping (s : NoditSet K) (q : Q) : Res (List K) := do
  pure ((← s.inner.overlapping q).map Prod.fst)
/-- `get_at_point`, `/repo/src/nodit/set.rs:50-52` -/
def getAtPoint (s : NoditSet K) (p : I) : Res (Except K K) := do
  pure ((← s.inner.getKeyValueAtPoint p).map Prod.fst)
/-- `contains_point`, `/repo/src/nodit/set.rs:54-56` -/
def containsPoint (s : NoditSet K) (p : I) : Res Bool := s.inner.containsPoint p
/-- `remove_overlapping`, `/repo/src/nodit/set.rs:58-66` -/
def removeOverlapping (s : NoditSet K) (q : Q) : Res (NoditSet K × List K) := do
  let (m, out) ← s.inner.removeOverlapping q
  pure (⟨m⟩, out.map Prod.fst)
/-- `cut`, `/repo/src/nodit/set.rs:68-73` -/
def cut (s : NoditSet K) (q : Q) : Res (NoditSet K × List K) := do
  let (m, out) ← s.inner.cut q
  pure (⟨m⟩, out.map Prod.fst)
/-- `gaps_untrimmed`, `/repo/src/nodit/set.rs:75-83` -/
def gapsUntrimmed (s : NoditSet K) (q : Q) : Res (List K) := s.inner.gapsUntrimmed q
/-- `gaps_trimmed`, `/repo/src/nodit/set.rs:85-93` -/
def gapsTrimmed (s : NoditSet K) (q : Q) : Res (List K) := s.inner.gapsTrimmed q
/-- `contains_interval`, `/repo/src/nodit/set.rs:95-100` -/
def containsInterval (s : NoditSet K) (q : Q) : Res Bool := s.inner.containsInterval q
/-- `insert_strict`, `/repo/src/nodit/set.rs:102-107` -/
def insertStrict (s : NoditSet K) (k : K) : Res (NoditSet K × Except (OverlapError Unit) Unit) := do
  let (m, r) ← s.inner.insertStrict k ()
  pure (⟨m⟩, r)
/-- `insert_merge_touching`, `/repo/src/nodit/set.rs:109-114` -/
def insertMergeTouching (s : NoditSet K) (k : K) : Res (NoditSet K × Except (OverlapError Unit) K) := do
  let (m, r) ← s.inner.insertMergeTouching k ()
  pure (⟨m⟩, r)
/-- `insert_merge_overlapping`, `/repo/src/nodit/set.rs:116-118` -/
def insertMergeOverlapping (s : NoditSet K) (k : K) : Res (NoditSet K × K) := do
  let (m, r) ← s.inner.insertMergeOverlapping k ()
  pure (⟨m⟩, r)
/-- `insert_merge_touching_or_overlapping`, `/repo/src/nodit/set.rs:120-123` -/
def insertMergeTouchingOrOverlapping (s : NoditSet K) (k : K) : Res (NoditSet K × K) := do
  let (m, r) ← s.inner.insertMergeTouchingOrOverlapping k ()
  pure (⟨m⟩, r)
/-- `insert_overwrite`, `/repo/src/nodit/set.rs:125-127` -/
def insertOverwrite (s : NoditSet K) (k : K) : Res (NoditSet K × List K) := do
  let (m, out) ← s.inner.insertOverwrite k ()
  pure (⟨m⟩, out.map Prod.fst)
/-- `new`/`default`, `/repo/src/nodit/set.rs:152-156, 214-223` -/
def new : NoditSet K := ⟨NoditMap.new⟩
/-- The loop of `from_iter_strict`, `/repo/src/nodit/set.rs:142-145` -/
def fromIterStrictFrom (s : NoditSet K) : List K → Res (Except (OverlapError Unit) (NoditSet K))
  | [] => pure (.ok s)
  | k :: rest => do
    match ← s.insertStrict k with
    | (_, .error e) => pure (.error e)
    | (s, .ok ()) => fromIterStrictFrom s rest
/-- `from_iter_strict`, `/repo/src/nodit/set.rs:139-147` -/
def fromIterStrict (l : List K) : Res (Except (OverlapError Unit) (NoditSet K)) := fromIterStrictFrom new l
/-- `from_slice_strict`, `/repo/src/nodit/set.rs:129-137` (same loop over an array) -/
def fromSliceStrict (l : List K) : Res (Except (OverlapError Unit) (NoditSet K)) := fromIterStrictFrom new l
/-- `len`, `/repo/src/nodit/set.rs:158-160` -/
def len (s : NoditSet K) : Nat := s.inner.len
/-- `is_empty`, `/repo/src/nodit/set.rs:162-164` -/
def isEmpty (s : NoditSet K) : Bool := s.inner.isEmpty
/-- `iter`, `/repo/src/nodit/set.rs:166-168` -/
def iter (s : NoditSet K) : List K := s.inner.iter.map Prod.fst
/-- `into_iter`, `/repo/src/nodit/set.rs:187-212` -/
def intoIter (s : NoditSet K) : List K := s.inner.intoIter.map Prod.fst
/-- `first`, `/repo/src/nodit/set.rs:170-172` -/
def first (s : NoditSet K) : Option K := s.inner.firstKeyValue.map Prod.fst
/-- `last`, `/repo/src/nodit/set.rs:174-176` -/
def last (s : NoditSet K) : Option K := s.inner.lastKeyValue.map Prod.fst

end NoditSet
end Nodit
