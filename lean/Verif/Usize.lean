import Verif.History
/-!
# The counter of `ZosditMap` as a machine integer

`/repo/src/zosdit/map.rs:66` declares `len: usize`. `Verif/Zosdit.lean` has it as a natural number. Here the functions that do
arithmetic on it are transcribed again for a `usize` with greatest value `M`, in the two ways Rust compiles `+=` and `-=`:
with overflow checks (a panic, as in debug builds) and wrapping (as in release builds).
-/
namespace Nodit

/-- `+=` and `-=` on a `usize`. Used at `/repo/src/zosdit/map.rs:319, 448, 451, 455`. -/
structure Arith where
  add : Nat → Nat → Res Nat
  sub : Nat → Nat → Res Nat

/-- with overflow checks; `M` is `usize::MAX`. Used at `/repo/src/zosdit/map.rs:319, 448, 451, 455`. -/
def Arith.checked (M : Nat) : Arith where
  add a b := if a + b ≤ M then .ok (a + b) else .error .overflow
  sub a b := if b ≤ a then .ok (a - b) else .error .overflow

/-- without overflow checks: modulo `M + 1`. Used at `/repo/src/zosdit/map.rs:319, 448, 451, 455`. -/
def Arith.wrapping (M : Nat) : Arith where
  add a b := .ok ((a + b) % (M + 1))
  sub a b := .ok ((a + ((M + 1) - b % (M + 1))) % (M + 1))

namespace ZosditMap
open Spec
variable {I K Q V : Type} [PointType I] [IntervalType I K] [IntervalType I Q]

/-- `insert_strict_back`, `/repo/src/zosdit/map.rs:279-323`; `self.len += 1` at 319 -/
def insertStrictBackU (A : Arith) (m : ZosditMap K V) (interval : K) (value : V) (pick : Nat) :
    Res (ZosditMap K V × Except (NonZeroOverlapError V) Unit) := do
  invalidIntervalPanic interval
  if !(← m.isZeroOverlap interval) then pure (m, .error ⟨value⟩)
  else
    let inner ← entryPush (insertComp interval) interval value pick m.inner
    let len ← A.add m.len 1
    pure (⟨len, inner⟩, .ok ())

/-- the `while` loop of `cut`, `/repo/src/zosdit/map.rs:437-461`; the counter changes at 448, 451 and 455 -/
def cutLoopU (A : Arith) (interval : Q) (len : Nat) : List (K × List V) → Res (List (K × List V) × List (K × V) × Nat)
  | [] => pure ([], [], len)
  | (key, valueStore) :: rest => do
    if !(← InclusiveInterval.overlaps key interval) then pure ((key, valueStore) :: rest, [], len)
    else
      let cutResult ← cutInterval key interval
      let (ins1, len) ← match cutResult.beforeCut with
        | some b => do
          let len ← A.add len valueStore.length
          pure ([((ofInterval b : K), valueStore)], len)
        | none => pure ([], len)
      let (ins2, len) ← match cutResult.afterCut with
        | some a => do
          let len ← A.add len valueStore.length
          pure ([((ofInterval a : K), valueStore)], len)
        | none => pure ([], len)
      let len ← A.sub len valueStore.length
      let result ← valueStore.mapM (fun v => do pure ((ofInterval (← unwrap cutResult.insideCut) : K), v))
      let (left, result', len) ← cutLoopU A interval len rest
      pure (ins1 ++ ins2 ++ left, result ++ result', len)

/-- `cut`, `/repo/src/zosdit/map.rs:419-464` -/
def cutU (A : Arith) (m : ZosditMap K V) (interval : Q) : Res (ZosditMap K V × List (K × V)) := do
  invalidIntervalPanic interval
  let cursor := BTree.upperBound (exclusiveComp (start interval) .lt) m.inner
  let cursor := if cursor.key.isNone then cursor.moveNext else cursor
  let (left, result, len) ← cutLoopU A interval m.len cursor.after
  pure (⟨len, cursor.before ++ left⟩, result)

/-- one call; `remove_last_value_at_point` (`/repo/src/zosdit/map.rs:223-246`) does not touch the counter -/
def stepU (A : Arith) (m : ZosditMap K V) : ZOp I K V → Res (ZosditMap K V × ZOut K V)
  | .insertStrictBack k v pick => do let (m, r) ← m.insertStrictBackU A k v pick; pure (m, .strict (errValue r))
  | .removeLastValueAtPoint p => do let (m, r) ← m.removeLastValueAtPoint p; pure (m, .optValue r)
  | .cut q => do let (m, r) ← m.cutU A q; pure (m, .entries r)

/-- A sequence of calls: the map and what each call returned. A call with an invalid interval leaves the map as it was and the
sequence goes on; any other panic ends it. A client of `/repo/src/zosdit/map.rs:92-640`. -/
def runU (A : Arith) (m : ZosditMap K V) : List (ZOp I K V) → ZosditMap K V × List (Res (ZOut K V))
  | [] => (m, [])
  | op :: ops =>
    match m.stepU A op with
    | .error .invalidInterval => let (m', os) := m.runU A ops; (m', .error .invalidInterval :: os)
    | .error p => (m, [.error p])
    | .ok (m1, o) => let (m', os) := m1.runU A ops; (m', .ok o :: os)

end Nodit.ZosditMap
