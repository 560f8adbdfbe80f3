import Verif.History
import Verif.CrashSpec
/-!
# `NoditMap` calls interrupted by a panic in user code

The methods of `NoditMap` call code supplied by the user: `start`/`end`/`From<Interval>` of the interval type, `Ord`
and `DiscreteFinite` of the point type, `Clone`, `Eq` and `Drop` of the values. If such code panics and the caller
catches the panic, the map is left as it was at that moment. Here the changing methods of `/repo/src/nodit/map.rs` are
modelled once more, as imperative programs over the mutable map, with a mark `user` wherever user code runs. A `fuel`
says after how many of these marks the user code panics. Since the map changes only at the calls of the container, one
mark between any two of them stands for any number of calls of user code there; the container's own search runs before
it changes anything.

That these programs compute, when undisturbed, what the functions of `Verif/NoditMap.lean` compute is a theorem
(`C78_undisturbed`), so they are also a second, independent transcription of the loops and cursors.
-/
namespace Nodit.Crash
open PointType Spec

/-- Programs over a mutable state `S`: given the state and the fuel (`none`: user code never panics), the result or
the reason of the unwinding, the state left behind, and the remaining fuel.
Execution with unwinding, models no lines of `/repo` of its own. -/
def Act (S α : Type) : Type := S → Option Nat → Except Stop α × S × Option Nat

namespace Act
variable {S α β : Type}

/-- sequencing of such programs; models no lines of `/repo` -/
instance : Monad (Act S) where
  pure a := fun s n => (.ok a, s, n)
  bind x f := fun s n =>
    match x s n with
    | (.ok a, s', n') => f a s' n'
    | (.error e, s', n') => (.error e, s', n')

/-- user code runs here. Execution with unwinding, models no lines of `/repo` of its own. -/
def user : Act S Unit := fun s n =>
  match n with
  | none => (.ok (), s, none)
  | some 0 => (.error .user, s, some 0)
  | some (n + 1) => (.ok (), s, some n)

/-- a computation of the crate that does not change the map. Execution with unwinding, models no lines of `/repo` of its own. -/
def res (x : Res α) : Act S α := fun s n =>
  match x with
  | .ok a => (.ok a, s, n)
  | .error p => (.error (.crate p), s, n)

/-- read the state. Execution with unwinding, models no lines of `/repo` of its own. -/
def get : Act S S := fun s n => (.ok s, s, n)
/-- change the state. Execution with unwinding, models no lines of `/repo` of its own. -/
def set (s : S) : Act S Unit := fun _ n => (.ok (), s, n)
end Act
open Act

variable {I K Q V : Type} [PointType I] [IntervalType I K] [IntervalType I Q]

/-- Run the body with a mutable cursor (`lower_bound_mut`) on the map; `CursorMut` works on the map in place, so the
map has the cursor's entries when the body is left, also by a panic. The body is given a bound for the number of
iterations of its `while` loop that is never reached. Execution with unwinding, models no lines of `/repo` of its own. -/
def withCursor {α : Type} (at_ : List (K × V) → BTree.Cursor K V) (body : Nat → Act (BTree.Cursor K V) α) :
    Act (NoditMap K V) α := fun m n =>
  let c := at_ m.inner
  let r := body (c.after.length + 1) c n
  (r.1, ⟨r.2.1.entries⟩, r.2.2)

/-- the `while` loop of `remove_overlapping`, `/repo/src/nodit/map.rs:382-387` -/
def removeLoop (q : Q) : Nat → Act (BTree.Cursor K V) (List (K × V))
  | 0 => pure []
  | n + 1 => do
    let c ← get
    match c.key with
    | none => pure []
    | some key => do
      user
      if ← res (InclusiveInterval.overlaps q key) then do
        let (removed, c') := c.removeCurrent
        set c'
        let removed ← res (unwrap removed)
        let result ← removeLoop q n
        pure (removed :: result)
      else pure []

/-- `remove_overlapping`, `/repo/src/nodit/map.rs:366-390` -/
def removeOverlapping (q : Q) : Act (NoditMap K V) (List (K × V)) := do
  user
  res (invalidIntervalPanic q)
  user
  withCursor (BTree.lowerBound (overlappingComp (start q))) (removeLoop q)

/-- `if let Some(part) = part { cursor.insert_before(K::from(part), value.clone()) }`,
`/repo/src/nodit/map.rs:453-455, 456-458` -/
def putBack (value : V) : Option (Interval I) → Act (BTree.Cursor K V) Unit
  | none => pure ()
  | some part => do
    user
    let c ← get
    set (c.insertBefore (ofInterval part) value)

/-- the `while` loop of `cut`, `/repo/src/nodit/map.rs:444-461` -/
def cutLoop (q : Q) : Nat → Act (BTree.Cursor K V) (List (K × V))
  | 0 => pure []
  | n + 1 => do
    let c ← get
    match c.key with
    | none => pure []
    | some key => do
      user
      if !(← res (InclusiveInterval.overlaps key q)) then pure []
      else do
        let (removed, c') := c.removeCurrent
        set c'
        let (key, value) ← res (unwrap removed)
        user
        let cutResult ← res (cutInterval key q)
        putBack value cutResult.beforeCut
        putBack value cutResult.afterCut
        let inside ← res (unwrap cutResult.insideCut)
        user
        let result ← cutLoop q n
        pure ((ofInterval inside, value) :: result)

/-- `cut`, `/repo/src/nodit/map.rs:430-464` -/
def cut (q : Q) : Act (NoditMap K V) (List (K × V)) := do
  user
  res (invalidIntervalPanic q)
  user
  withCursor (BTree.lowerBound (overlappingComp (start q))) (cutLoop q)

/-- `insert_unchecked`, `/repo/src/nodit/map.rs:729-731` -/
def insertUnchecked (k : K) (v : V) : Act (NoditMap K V) Unit := do
  user
  let m ← get
  set (m.insertUnchecked k v)

/-- `insert_strict`, `/repo/src/nodit/map.rs:714-728` -/
def insertStrict (k : K) (v : V) : Act (NoditMap K V) (Except (OverlapError V) Unit) := do
  user
  res (invalidIntervalPanic k)
  user
  let m ← get
  if ← res (m.overlaps k) then pure (.error ⟨v⟩)
  else do
    insertUnchecked k v
    pure (.ok ())

/-- `selfy.inner.remove(comp)` with the removed entry dropped, `/repo/src/nodit/map.rs:860-865` -/
def removeBy (comp : K → Ordering) : Act (NoditMap K V) Unit := do
  user
  let m ← get
  set ⟨BTree.remove comp m.inner⟩
  user

/-- `insert_merge_with_comps`, `/repo/src/nodit/map.rs:733-777` -/
def insertMergeWithComps (k : K) (v : V) (getStart getEnd : NoditMap K V → V → Option K)
    (removeStart removeEnd : V → Act (NoditMap K V) Unit) : Act (NoditMap K V) K := do
  user
  res (invalidIntervalPanic k)
  user
  let m ← get
  let matchingStart := getStart m v
  let matchingEnd := getEnd m v
  let returning : K := match matchingStart, matchingEnd with
    | some ms, some me => ofInterval { start := start ms, stop := stop me }
    | some ms, none => ofInterval { start := start ms, stop := stop k }
    | none, some me => ofInterval { start := start k, stop := stop me }
    | none, none => k
  let _ ← removeOverlapping k
  user
  removeStart v
  removeEnd v
  insertUnchecked returning v
  pure returning

/-- `insert_merge_touching`, `/repo/src/nodit/map.rs:832-867` -/
def insertMergeTouching (k : K) (v : V) : Act (NoditMap K V) (Except (OverlapError V) K) := do
  user
  res (invalidIntervalPanic k)
  user
  let m ← get
  if ← res (m.overlaps k) then pure (.error ⟨v⟩)
  else do
    let r ← insertMergeWithComps k v
      (fun m _ => (BTree.find (touchingStartComp (start k)) m.inner).map Prod.fst)
      (fun m _ => (BTree.find (touchingEndComp (stop k)) m.inner).map Prod.fst)
      (fun _ => removeBy (touchingStartComp (start k)))
      (fun _ => removeBy (touchingEndComp (stop k)))
    pure (.ok r)

/-- `insert_merge_touching_if_values_equal`, `/repo/src/nodit/map.rs:920-971` -/
def insertMergeTouchingIfValuesEqual [BEq V] (k : K) (v : V) : Act (NoditMap K V) (Except (OverlapError V) K) := do
  user
  res (invalidIntervalPanic k)
  user
  let m ← get
  if ← res (m.overlaps k) then pure (.error ⟨v⟩)
  else do
    let r ← insertMergeWithComps k v (NoditMap.getStartEq k) (NoditMap.getEndEq k)
      (fun v => do
        user
        let m ← get
        if (NoditMap.getStartEq k m v).isSome then removeBy (touchingStartComp (start k)))
      (fun v => do
        user
        let m ← get
        if (NoditMap.getEndEq k m v).isSome then removeBy (touchingEndComp (stop k)))
    pure (.ok r)

/-- `insert_merge_overlapping`, `/repo/src/nodit/map.rs:1021-1044` -/
def insertMergeOverlapping (k : K) (v : V) : Act (NoditMap K V) K := do
  user
  res (invalidIntervalPanic k)
  insertMergeWithComps k v
    (fun m _ => (BTree.find (overlappingComp (start k)) m.inner).map Prod.fst)
    (fun m _ => (BTree.find (overlappingComp (stop k)) m.inner).map Prod.fst)
    (fun _ => pure ())
    (fun _ => pure ())

/-- `insert_merge_touching_or_overlapping`, `/repo/src/nodit/map.rs:1094-1133` -/
def insertMergeTouchingOrOverlapping (k : K) (v : V) : Act (NoditMap K V) K := do
  user
  res (invalidIntervalPanic k)
  insertMergeWithComps k v
    (fun m _ => ((BTree.find (touchingStartComp (start k)) m.inner).map Prod.fst).or
      ((BTree.find (overlappingComp (start k)) m.inner).map Prod.fst))
    (fun m _ => ((BTree.find (touchingEndComp (stop k)) m.inner).map Prod.fst).or
      ((BTree.find (overlappingComp (stop k)) m.inner).map Prod.fst))
    (fun _ => removeBy (touchingStartComp (start k)))
    (fun _ => removeBy (touchingEndComp (stop k)))

/-- `insert_overwrite`, `/repo/src/nodit/map.rs:1166-1179` -/
def insertOverwrite (k : K) (v : V) : Act (NoditMap K V) (List (K × V)) := do
  user
  res (invalidIntervalPanic k)
  let out ← cut k
  insertUnchecked k v
  pure out

/-- One call. The calls that do not change the container are as in `Verif/History.lean`, with user code running before
(what the caller does to values through `&mut V`, completely or not, is the function in the call).
Execution with unwinding, models no lines of `/repo` of its own. -/
def step [BEq V] : Op I K V → Act (NoditMap K V) (Out K V)
  | .insertStrict k v => do pure (.strict (NoditMap.errValue (← insertStrict k v)))
  | .insertMergeTouching k v => do pure (.merge (NoditMap.errValue (← insertMergeTouching k v)))
  | .insertMergeTouchingIfValuesEqual k v => do
    pure (.merge (NoditMap.errValue (← insertMergeTouchingIfValuesEqual k v)))
  | .insertMergeOverlapping k v => do pure (.key (← insertMergeOverlapping k v))
  | .insertMergeTouchingOrOverlapping k v => do pure (.key (← insertMergeTouchingOrOverlapping k v))
  | .insertOverwrite k v => do pure (.entries (← insertOverwrite k v))
  | .cut q => do pure (.entries (← cut q))
  | .removeOverlapping q => do pure (.entries (← removeOverlapping q))
  | op => do
    user
    let m ← get
    let (m', o) ← res (m.step op)
    set m'
    pure o

/-- A sequence of calls, each with the number of runs of user code after which the next one panics (`none`: it does
not). All panics are caught. Execution with unwinding, models no lines of `/repo` of its own. -/
def run [BEq V] (m : NoditMap K V) : List (Op I K V × Option Nat) → NoditMap K V × List (Except Stop (Out K V))
  | [] => (m, [])
  | (op, n) :: ops =>
    let r := step op m n
    let (m', os) := run r.2.1 ops
    (m', r.1 :: os)

end Nodit.Crash
