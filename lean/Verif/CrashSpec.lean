import Verif.Spec
/-!
# What a panic of user code in the middle of a `NoditMap` call may leave behind

`S` is the set of entries before the call, `S'` the set after the panic has been caught.
-/
namespace Nodit.Crash
/-- Why a call was left early: user code panicked, or the crate did. -/
inductive Stop where
  | user
  | crate (p : Panic)
deriving DecidableEq, Repr

end Nodit.Crash

namespace Nodit.Spec
variable {I K A V : Type} [PointType I] [IntervalType I K] [IntervalType I A]

/-- nothing new, and only entries satisfying `P` are missing -/
def LosesOnly (S S' : Set (K × V)) (P : K × V → Prop) : Prop := S' ⊆ S ∧ ∀ e ∈ S, e ∉ S' → P e

/-- a `cut(q)` stopped in the middle: the entries in `done` (which overlap `q`) have been cut completely, at most one
further entry overlapping `q` has been taken out with only some of its outer parts put back, the others are
untouched -/
def PartlyCut (S S' : Set (K × V)) (q : A) : Prop :=
  ∃ done doing : Set (K × V), ∃ part ⊆ CutRemaining doing q,
    (∀ e ∈ done ∪ doing, e ∈ S ∧ Overlap e.1 q) ∧ (∀ e ∈ doing, ∀ d ∈ doing, e = d) ∧
    S' = {e | e ∈ S ∧ e ∉ done ∪ doing} ∪ CutRemaining done q ∪ part

/-- what a panic of user code during the call may leave behind -/
def CrashLeaves [BEq V] (S : Set (K × V)) : Op I K V → Set (K × V) → Prop
  | .insertMergeTouching k _, S' => LosesOnly S S' (fun e => Touch e.1 k ∧ ¬ ∃ d ∈ S, Overlap d.1 k)
  | .insertMergeTouchingIfValuesEqual k v, S' =>
    LosesOnly S S' (fun e => Touch e.1 k ∧ (e.2 == v) = true ∧ ¬ ∃ d ∈ S, Overlap d.1 k)
  | .insertMergeOverlapping k _, S' => LosesOnly S S' (fun e => Overlap e.1 k)
  | .insertMergeTouchingOrOverlapping k _, S' => LosesOnly S S' (fun e => Touch e.1 k ∨ Overlap e.1 k)
  | .insertOverwrite k _, S' => PartlyCut S S' k
  | .cut q, S' => PartlyCut S S' q
  | .removeOverlapping q, S' => LosesOnly S S' (fun e => Overlap e.1 q)
  | _, S' => S' = S

/-- the entry overlaps or touches the interval argument of the (changing) call -/
def Op.Near (e : K × V) : Op I K V → Prop
  | .insertStrict k _ | .insertMergeTouching k _ | .insertMergeTouchingIfValuesEqual k _
  | .insertMergeOverlapping k _ | .insertMergeTouchingOrOverlapping k _ | .insertOverwrite k _ =>
    Overlap e.1 k ∨ Touch e.1 k
  | .cut q | .removeOverlapping q => Overlap e.1 q ∨ Touch e.1 q
  | _ => False

/-- One call on a set of entries, with any panic caught: the call returned or rejected its argument as it should, or user
code panicked in the middle of it. -/
def CrashStep [BEq V] (S : Set (K × V)) (op : Op I K V) (S' : Set (K × V)) : Except Crash.Stop (Out K V) → Prop
  | .ok out => SpecStep S op S' (.ok out)
  | .error (.crate p) => SpecStep S op S' (.error p)
  | .error .user => CrashLeaves S op S'

/-- A history of calls with all panics caught. -/
inductive CrashRun [BEq V] :
    Set (K × V) → List (Op I K V) → Set (K × V) → List (Except Crash.Stop (Out K V)) → Prop
  | nil (S) : CrashRun S [] S []
  | cons {S S' S'' op ops o os} : CrashStep S op S' o → CrashRun S' ops S'' os →
      CrashRun S (op :: ops) S'' (o :: os)

end Nodit.Spec
