import Verif.History
/-!
# Values whose `clone()` is not the identity

`NoditMap::cut`, `NoditMap::insert_overwrite` and `ZosditMap::cut` need `V: Clone`: when an entry sticks out of the interval cut
out, its value is wanted in more than one place. In `Verif/NoditMap.lean` and `Verif/Zosdit.lean` a clone is the value itself. Here
`clone()` is any function that may also read and change something outside (a counter, the heap): `clone v s` is what it returns, and
the new outside state. The three methods are transcribed once more, with the calls of `clone()` in the order of the code. `C98`
relates the two versions.
-/
namespace Nodit
variable {I K Q V σ : Type} [PointType I] [IntervalType I K] [IntervalType I Q]

/-- `impl Clone for V`: the clone, and the new outside state. Called at `/repo/src/nodit/map.rs:454, 457`. -/
abbrev CloneFn (σ V : Type) := V → σ → V × σ

namespace NoditMap

/-- `if let Some(part) = part { cursor.insert_before(K::from(part), value.clone()) }`, `/repo/src/nodit/map.rs:453-455, 456-458`: the
entries inserted -/
def insertClone (clone : CloneFn σ V) (value : V) (part : Option (Interval I)) (s : σ) : List (K × V) × σ :=
  match part with
  | some part =>
    let (value', s) := clone value s
    ([(ofInterval part, value')], s)
  | none => ([], s)

/-- The `while` loop of `cut`, `/repo/src/nodit/map.rs:444-461`, as `NoditMap.cutLoop` -/
def cutLoopClone (clone : CloneFn σ V) (q : Q) : List (K × V) → σ → Res (List (K × V) × List (K × V) × σ)
  | [], s => pure ([], [], s)
  | (key, value) :: rest, s => do
    if !(← InclusiveInterval.overlaps key q) then pure ((key, value) :: rest, [], s)
    else
      let cutResult ← cutInterval key q
      let (ins1, s) := insertClone clone value cutResult.beforeCut s
      let (ins2, s) := insertClone clone value cutResult.afterCut s
      let inside ← unwrap cutResult.insideCut
      let (left, result, s) ← cutLoopClone clone q rest s
      pure (ins1 ++ ins2 ++ left, (ofInterval inside, value) :: result, s)

/-- `cut`, `/repo/src/nodit/map.rs:430-464` -/
def cutClone (clone : CloneFn σ V) (m : NoditMap K V) (q : Q) (s : σ) : Res (NoditMap K V × List (K × V) × σ) := do
  invalidIntervalPanic q
  let cursor := BTree.lowerBound (overlappingComp (start q)) m.inner
  let (left, result, s) ← cutLoopClone clone q cursor.after s
  pure (⟨cursor.before ++ left⟩, result, s)

/-- `insert_overwrite`, `/repo/src/nodit/map.rs:1166-1179` -/
def insertOverwriteClone (clone : CloneFn σ V) (m : NoditMap K V) (k : K) (v : V) (s : σ) :
    Res (NoditMap K V × List (K × V) × σ) := do
  invalidIntervalPanic k
  let (m, out, s) ← m.cutClone clone k s
  pure (m.insertUnchecked k v, out, s)

variable [BEq V]
/-- One call, as `NoditMap.step`. A client of the methods of `/repo/src/nodit/map.rs` or `/repo/src/zosdit/map.rs:92-640`. -/
def stepClone (clone : CloneFn σ V) (m : NoditMap K V) (s : σ) : Spec.Op I K V → Res (NoditMap K V × Spec.Out K V × σ)
  | .insertOverwrite k v => do let (m, r, s) ← m.insertOverwriteClone clone k v s; pure (m, .entries r, s)
  | .cut q => do let (m, r, s) ← m.cutClone clone q s; pure (m, .entries r, s)
  | op => do let (m, o) ← m.step op; pure (m, o, s)

/-- A sequence of calls, as `NoditMap.run`. A call that panics does so in the check of its argument, before any `clone()`.
A client, as the one above. A client, models no lines of `/repo`. -/
def runClone (clone : CloneFn σ V) (m : NoditMap K V) (s : σ) : List (Spec.Op I K V) → NoditMap K V × List (Res (Spec.Out K V)) × σ
  | [] => (m, [], s)
  | op :: ops =>
    match m.stepClone clone s op with
    | .error p => let (m', os, s) := m.runClone clone s ops; (m', .error p :: os, s)
    | .ok (m1, o, s) => let (m', os, s) := m1.runClone clone s ops; (m', .ok o :: os, s)
end NoditMap

namespace ZosditMap

/-- `value_store.clone()`: `SmallVec` clones its elements in order. Called at `/repo/src/zosdit/map.rs:447, 452`. -/
def cloneStore (clone : CloneFn σ V) : List V → σ → List V × σ
  | [], s => ([], s)
  | v :: l, s =>
    let (v', s) := clone v s
    let (l', s) := cloneStore clone l s
    (v' :: l', s)

/-- `cursor.insert_before(K::from(part), value_store.clone()); self.len += value_store.len()`,
`/repo/src/zosdit/map.rs:446-449, 450-453`: the entries inserted, and the counter -/
def insertClone (clone : CloneFn σ V) (valueStore : List V) (part : Option (Interval I)) (len : Nat) (s : σ) :
    List (K × List V) × Nat × σ :=
  match part with
  | some part =>
    let (store', s) := cloneStore clone valueStore s
    ([(ofInterval part, store')], len + valueStore.length, s)
  | none => ([], len, s)

/-- The `while` loop of `cut`, `/repo/src/zosdit/map.rs:437-461`, as `ZosditMap.cutLoop` -/
def cutLoopClone (clone : CloneFn σ V) (interval : Q) (len : Nat) :
    List (K × List V) → σ → Res (List (K × List V) × List (K × V) × Nat × σ)
  | [], s => pure ([], [], len, s)
  | (key, valueStore) :: rest, s => do
    if !(← InclusiveInterval.overlaps key interval) then pure ((key, valueStore) :: rest, [], len, s)
    else
      let cutResult ← cutInterval key interval
      let (ins1, len, s) := insertClone clone valueStore cutResult.beforeCut len s
      let (ins2, len, s) := insertClone clone valueStore cutResult.afterCut len s
      if len < valueStore.length then .error .overflow
      else
        let len := len - valueStore.length
        let result ← valueStore.mapM (fun v => do pure ((ofInterval (← unwrap cutResult.insideCut) : K), v))
        let (left, result', len, s) ← cutLoopClone clone interval len rest s
        pure (ins1 ++ ins2 ++ left, result ++ result', len, s)

/-- `cut`, `/repo/src/zosdit/map.rs:419-464` -/
def cutClone (clone : CloneFn σ V) (m : ZosditMap K V) (interval : Q) (s : σ) : Res (ZosditMap K V × List (K × V) × σ) := do
  invalidIntervalPanic interval
  let cursor := BTree.upperBound (exclusiveComp (start interval) .lt) m.inner
  let cursor := if cursor.key.isNone then cursor.moveNext else cursor
  let (left, result, len, s) ← cutLoopClone clone interval m.len cursor.after s
  pure (⟨len, cursor.before ++ left⟩, result, s)

/-- One changing call, as `ZosditMap.step`.
A client of the methods of `/repo/src/nodit/map.rs` or `/repo/src/zosdit/map.rs:92-640`. -/
def stepClone (clone : CloneFn σ V) (m : ZosditMap K V) (s : σ) : Spec.ZOp I K V → Res (ZosditMap K V × Spec.ZOut K V × σ)
  | .cut q => do let (m, r, s) ← m.cutClone clone q s; pure (m, .entries r, s)
  | op => do let (m, o) ← m.step op; pure (m, o, s)

/-- A sequence of calls, as `ZosditMap.run`. A client, as the one above. A client, models no lines of `/repo`. -/
def runClone (clone : CloneFn σ V) (m : ZosditMap K V) (s : σ) : List (Spec.ZOp I K V) → ZosditMap K V × List (Res (Spec.ZOut K V)) × σ
  | [] => (m, [], s)
  | op :: ops =>
    match m.stepClone clone s op with
    | .error p => let (m', os, s) := m.runClone clone s ops; (m', .error p :: os, s)
    | .ok (m1, o, s) => let (m', os, s) := m1.runClone clone s ops; (m', .ok o :: os, s)
end ZosditMap
end Nodit
