import Verif.SetHistory
import Verif.Crash
/-!
# `NoditSet` calls interrupted by a panic in user code

Every method of `/repo/src/nodit/set.rs` is one call of the method of the inner `NoditMap`, whose result is then projected without
running user code (`first`, `/repo/src/nodit/set.rs:181-183`; the drop of the `()` values does nothing).
-/
namespace Nodit.Crash
open Spec
variable {I K : Type} [PointType I] [IntervalType I K]

/-- One call, `/repo/src/nodit/set.rs:33-176`: the interruptible program of `Verif/Crash.lean` on the field `inner`. -/
def setStep (op : SetCall I K) : Act (NoditSet K) (SetOut K) := fun s n =>
  let r := step op.toMap s.inner n
  (r.1.map SetOut.ofMap, ⟨r.2.1⟩, r.2.2)

/-- A sequence of calls, each with the number of runs of user code after which the next one panics (`none`: it does not). All
panics are caught. A client or its specification, models no lines of `/repo`; the calls are those of `nodit/set.rs`. -/
def setRun (s : NoditSet K) : List (SetCall I K × Option Nat) → NoditSet K × List (Except Stop (SetOut K))
  | [] => (s, [])
  | (op, n) :: ops =>
    let r := setStep op s n
    let (s', os) := setRun r.2.1 ops
    (s', r.1 :: os)

end Nodit.Crash

namespace Nodit.Spec
variable {I K : Type} [PointType I] [IntervalType I K]

/-- nothing new, and only intervals satisfying `P` are missing.
A client or its specification, models no lines of `/repo`; the calls are those of `nodit/set.rs`. -/
def SetLosesOnly (S S' : Set K) (P : K → Prop) : Prop := S' ⊆ S ∧ ∀ k ∈ S, k ∉ S' → P k

/-- a `cut(q)` stopped in the middle (as `PartlyCut`).
A client or its specification, models no lines of `/repo`; the calls are those of `nodit/set.rs`. -/
def SetPartlyCut {A : Type} [IntervalType I A] (S S' : Set K) (q : A) : Prop :=
  ∃ done doing : Set K, ∃ part ⊆ SetCutRemaining doing q,
    (∀ k ∈ done ∪ doing, k ∈ S ∧ Overlap k q) ∧ (∀ k ∈ doing, ∀ j ∈ doing, k = j) ∧
    S' = {k | k ∈ S ∧ k ∉ done ∪ doing} ∪ SetCutRemaining done q ∪ part

/-- what a panic of user code during the call may leave behind.
A client or its specification, models no lines of `/repo`; the calls are those of `nodit/set.rs`. -/
def SetCrashLeaves (S : Set K) : SetCall I K → Set K → Prop
  | .insertMergeTouching k, S' => SetLosesOnly S S' (fun j => Touch j k ∧ ¬ ∃ d ∈ S, Overlap d k)
  | .insertMergeOverlapping k, S' => SetLosesOnly S S' (fun j => Overlap j k)
  | .insertMergeTouchingOrOverlapping k, S' => SetLosesOnly S S' (fun j => Touch j k ∨ Overlap j k)
  | .insertOverwrite k, S' => SetPartlyCut S S' k
  | .cut q, S' => SetPartlyCut S S' q
  | .removeOverlapping q, S' => SetLosesOnly S S' (fun j => Overlap j q)
  | _, S' => S' = S

/-- One call, with any panic caught: the call returned or rejected its argument as it should, or user code panicked in the
middle of it. A client or its specification, models no lines of `/repo`; the calls are those of `nodit/set.rs`. -/
def SetCrashStep (S : Set K) (op : SetCall I K) (S' : Set K) : Except Crash.Stop (SetOut K) → Prop
  | .ok out => SetSpecStep S op S' (.ok out)
  | .error (.crate p) => SetSpecStep S op S' (.error p)
  | .error .user => SetCrashLeaves S op S'

/-- A history of calls with all panics caught.
A client or its specification, models no lines of `/repo`; the calls are those of `nodit/set.rs`. -/
inductive SetCrashRun : Set K → List (SetCall I K) → Set K → List (Except Crash.Stop (SetOut K)) → Prop
  | nil (S) : SetCrashRun S [] S []
  | cons {S S' S'' op ops o os} : SetCrashStep S op S' o → SetCrashRun S' ops S'' os →
      SetCrashRun S (op :: ops) S'' (o :: os)
end Nodit.Spec
