import Verif.Crash
import Verif.ZSpec
/-!
# `ZosditMap` calls interrupted by a panic in user code

The same technique as in `Verif/Crash.lean`. `insert_strict_back` (`/repo/src/zosdit/map.rs:279-323`) and
`remove_last_value_at_point` (`/repo/src/zosdit/map.rs:223-246`) run user code only while they search; what follows
(`or_default`, `push`, the counter; `pop`, `remove_current`) runs none. `cut` alternates user code with changes of
the entries and of the counter.
-/
namespace Nodit.Crash
open PointType Spec Act

variable {I K Q V : Type} [PointType I] [IntervalType I K] [IntervalType I Q]

/-- what `cut` works on: the counter `self.len` and the cursor.
A client, its specification or bookkeeping, models no lines of `/repo`; the calls are those of `zosdit/map.rs`. -/
abbrev ZCur (K V : Type) : Type := Nat × BTree.Cursor K (List V)

/-- `if let Some(before_cut) = .. { cursor.insert_before(K::from(before_cut), value_store.clone()); self.len += .. }`,
`/repo/src/zosdit/map.rs:446-449` -/
def zPutBefore (store : List V) : Option (Interval I) → Act (ZCur K V) Unit
  | none => pure ()
  | some part => do
    user
    let s ← get
    set (s.1, s.2.insertBefore (ofInterval part) store)
    let s ← get
    set (s.1 + store.length, s.2)

/-- `if let Some(after_cut) = .. { self.len += ..; cursor.insert_before(K::from(after_cut), value_store.clone()); }`,
`/repo/src/zosdit/map.rs:450-453` -/
def zPutAfter (store : List V) : Option (Interval I) → Act (ZCur K V) Unit
  | none => pure ()
  | some part => do
    let s ← get
    set (s.1 + store.length, s.2)
    user
    let s ← get
    set (s.1, s.2.insertBefore (ofInterval part) store)

/-- the `while` loop of `cut`, `/repo/src/zosdit/map.rs:437-461` -/
def zCutLoop (q : Q) : Nat → Act (ZCur K V) (List (K × V))
  | 0 => pure []
  | n + 1 => do
    let s ← get
    match s.2.key with
    | none => pure []
    | some key => do
      user
      if !(← res (InclusiveInterval.overlaps key q)) then pure []
      else do
        let (removed, c) := s.2.removeCurrent
        set (s.1, c)
        let (key, store) ← res (unwrap removed)
        user
        let cutResult ← res (cutInterval key q)
        zPutBefore store cutResult.beforeCut
        zPutAfter store cutResult.afterCut
        let s ← get
        if s.1 < store.length then res (.error .overflow)
        else do
          set (s.1 - store.length, s.2)
          user
          let out ← res (store.mapM (fun v => do pure ((ofInterval (← unwrap cutResult.insideCut) : K), v)))
          let result ← zCutLoop q n
          pure (out ++ result)

/-- `cut`, `/repo/src/zosdit/map.rs:419-464`. The cursor works on the map in place, so the map has the cursor's entries
and the counter when the body is left, also by a panic. -/
def zCut (q : Q) : Act (ZosditMap K V) (List (K × V)) := do
  user
  res (invalidIntervalPanic q)
  user
  fun m n =>
    let c := BTree.upperBound (exclusiveComp (start q) .lt) m.inner
    let c := if c.key.isNone then c.moveNext else c
    let r := zCutLoop q (c.after.length + 1) (m.len, c) n
    (r.1, ⟨r.2.1.1, r.2.1.2.entries⟩, r.2.2)

/-- One call. For `insert_strict_back` and `remove_last_value_at_point` see above.
A client, its specification or bookkeeping, models no lines of `/repo`; the calls are those of `zosdit/map.rs`. -/
def zStep : ZOp I K V → Act (ZosditMap K V) (ZOut K V)
  | .cut q => do pure (.entries (← zCut q))
  | op => do
    user
    let m ← get
    let (m', o) ← res (m.step op)
    set m'
    pure o

/-- A sequence of calls, each with the number of runs of user code after which the next one panics (`none`: it does
not). All panics are caught.
A client, its specification or bookkeeping, models no lines of `/repo`; the calls are those of `zosdit/map.rs`. -/
def zRun (m : ZosditMap K V) : List (ZOp I K V × Option Nat) → ZosditMap K V × List (Except Stop (ZOut K V))
  | [] => (m, [])
  | (op, n) :: ops =>
    let r := zStep op m n
    let (m', os) := zRun r.2.1 ops
    (m', r.1 :: os)

end Nodit.Crash

namespace Nodit.Spec
variable {I K V : Type} [PointType I] [IntervalType I K]

/-- A `cut(q)` stopped in the middle: the entries in `l1` have been cut completely, those in `l2` not at all. Between
them at most one store (entries with one and the same key, overlapping `q`) has been taken out, and the pieces in `part`,
the first of those that should remain, have been put back; `len()` counts this store as if it were there, or even
twice. A client, its specification or bookkeeping, models no lines of `/repo`; the calls are those of `zosdit/map.rs`. -/
def ZPartlyCut {Q : Type} [IntervalType I Q] (q : Q) (s s' : ZState K V) : Prop :=
  ∃ l1 mid l2 l1' r1 full r part counted, s.entries = l1 ++ mid ++ l2 ∧
    (∀ e ∈ mid, Overlap e.1 q) ∧ (∀ e ∈ mid, ∀ d ∈ mid, e.1 = d.1) ∧
    CutAll q l1 l1' r1 ∧ CutAll q mid full r ∧ part <+: full ∧
    (counted = mid.length ∨ counted = 2 * mid.length ∧ part ≠ full) ∧
    s' = ⟨l1' ++ part ++ l2, s.removed + counted, true⟩

/-- what a panic of user code during the call may leave behind.
A client, its specification or bookkeeping, models no lines of `/repo`; the calls are those of `zosdit/map.rs`. -/
def ZCrashLeaves (s : ZState K V) : ZOp I K V → ZState K V → Prop
  | .cut q, s' => s' = s ∨ Valid q ∧ ¬ CutMisses s.entries q ∧ ZPartlyCut q s s'
  | _, s' => s' = s

/-- One call, with any panic caught: the call returned or rejected its argument as the reference machine does, or user
code panicked in the middle of it.
A client, its specification or bookkeeping, models no lines of `/repo`; the calls are those of `zosdit/map.rs`. -/
def ZCrashStep (s : ZState K V) (op : ZOp I K V) (s' : ZState K V) : Except Crash.Stop (ZOut K V) → Prop
  | .ok out => ZSpecStep s op s' (.ok out)
  | .error (.crate p) => ZSpecStep s op s' (.error p)
  | .error .user => ZCrashLeaves s op s'

/-- A history of calls with all panics caught.
A client, its specification or bookkeeping, models no lines of `/repo`; the calls are those of `zosdit/map.rs`. -/
inductive ZCrashRun : ZState K V → List (ZOp I K V) → ZState K V → List (Except Crash.Stop (ZOut K V)) → Prop
  | nil (s) : ZCrashRun s [] s []
  | cons {s s' s'' op ops o os} : ZCrashStep s op s' o → ZCrashRun s' ops s'' os →
      ZCrashRun s (op :: ops) s'' (o :: os)

end Nodit.Spec
