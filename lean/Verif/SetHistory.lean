import Verif.NoditSet
import Verif.Spec
/-!
# Histories of `NoditSet` calls, with their results

The calls and the reference machine of `NoditSet` - a plain set of intervals - and the dispatch of a call to the model
functions of `Verif/NoditSet.lean`. (`Verif/History.lean` has only the changing calls, without results.)
-/
namespace Nodit.Spec

/-- Calls of the `NoditSet` API. Query intervals are of type `Interval I` and, like the inserted ones, may be invalid.
A client or its specification, models no lines of `/repo`; the calls are those of `nodit/set.rs`. -/
inductive SetCall (I K : Type) where
  | insertStrict (k : K)
  | insertMergeTouching (k : K)
  | insertMergeOverlapping (k : K)
  | insertMergeTouchingOrOverlapping (k : K)
  | insertOverwrite (k : K)
  | cut (q : Interval I)
  | removeOverlapping (q : Interval I)
  | overlapping (q : Interval I)
  | overlaps (q : Interval I)
  | gapsUntrimmed (q : Interval I)
  | gapsTrimmed (q : Interval I)
  | containsInterval (q : Interval I)
  | getAtPoint (p : I)
  | containsPoint (p : I)
  | iter
  | len
  | isEmpty
  | first
  | last

/-- What a call returns. A client or its specification, models no lines of `/repo`; the calls are those of `nodit/set.rs`. -/
inductive SetOut (K : Type) where
  | bool (b : Bool)
  | nat (n : Nat)
  | keys (l : List K)
  | optKey (k : Option K)
  /-- `Ok(interval)` or `Err(gap)` of `get_at_point` -/
  | lookup (r : Except K K)
  /-- `Ok(())` or `Err(OverlapError { value: () })` -/
  | strict (r : Except Unit Unit)
  /-- `Ok(merged)` or `Err(OverlapError { value: () })` -/
  | merge (r : Except Unit K)
  | key (k : K)

section
variable {I K A : Type} [PointType I] [IntervalType I K] [IntervalType I A]

/-- the interval argument, if there is one, contains no point.
A client or its specification, models no lines of `/repo`; the calls are those of `nodit/set.rs`. -/
def SetCall.Bad : SetCall I K → Prop
  | .insertStrict k | .insertMergeTouching k | .insertMergeOverlapping k | .insertMergeTouchingOrOverlapping k
  | .insertOverwrite k => ¬ Valid k
  | .cut q | .removeOverlapping q | .overlapping q | .overlaps q | .gapsUntrimmed q | .gapsTrimmed q
  | .containsInterval q => ¬ Valid q
  | _ => False

/-- some interval of the set contains the point.
A client or its specification, models no lines of `/repo`; the calls are those of `nodit/set.rs`. -/
def InSome (S : Set K) (p : I) : Prop := ∃ k ∈ S, Mem p k

/-- `l` lists the intervals in `S`, each once, in ascending order.
A client or its specification, models no lines of `/repo`; the calls are those of `nodit/set.rs`. -/
def ListsSet (l : List K) (S : Set K) : Prop := Ascending l ∧ ∀ k, k ∈ l ↔ k ∈ S

/-- `r` is the result of merging `k` with the intervals in `T`: it has exactly the points of `k` and of the intervals in `T`;
it is `k` itself if there is nothing to merge at or beyond the ends of `k`, otherwise it is built with `From<Interval>`.
A client or its specification, models no lines of `/repo`; the calls are those of `nodit/set.rs`. -/
def MergedSet (k : K) (T : Set K) (r : K) : Prop :=
  (∀ p, Mem p r ↔ Mem p k ∨ InSome T p) ∧
  ((∀ t ∈ T, StrictlyInside t k) → r = k) ∧
  ((∃ t ∈ T, ¬ StrictlyInside t k) → ∃ i, r = ofInterval i)

/-- what `cut(q)` leaves. A client or its specification, models no lines of `/repo`; the calls are those of `nodit/set.rs`. -/
def SetCutRemaining (S : Set K) (q : A) : Set K :=
  {k | (k ∈ S ∧ ¬ Overlap k q) ∨
       ∃ f ∈ S, Overlap f q ∧ ∃ i, k = ofInterval i ∧
         (Describes i (fun p => Mem p f ∧ ∀ x, Mem x q → p < x) ∨
          Describes i (fun p => Mem p f ∧ ∀ x, Mem x q → x < p))}

/-- what `cut(q)` returns. A client or its specification, models no lines of `/repo`; the calls are those of `nodit/set.rs`. -/
def SetCutReturned (S : Set K) (q : A) : Set K :=
  {k | ∃ f ∈ S, ∃ i, k = ofInterval i ∧ Describes i (fun p => Mem p f ∧ Mem p q)}

/-- Effect and result of a call with valid arguments on a set of intervals.
A client or its specification, models no lines of `/repo`; the calls are those of `nodit/set.rs`. -/
def SetSpecOp (S : Set K) : SetCall I K → Set K → SetOut K → Prop
  | .insertStrict k, S', o =>
    ((∃ j ∈ S, Overlap j k) → S' = S ∧ o = .strict (.error ())) ∧
    ((¬ ∃ j ∈ S, Overlap j k) → S' = S ∪ {k} ∧ o = .strict (.ok ()))
  | .insertMergeTouching k, S', o =>
    ((∃ j ∈ S, Overlap j k) → S' = S ∧ o = .merge (.error ())) ∧
    ((¬ ∃ j ∈ S, Overlap j k) → ∃ r, MergedSet k {j | j ∈ S ∧ Touch j k} r ∧
      S' = {j | j ∈ S ∧ ¬ Touch j k} ∪ {r} ∧ o = .merge (.ok r))
  | .insertMergeOverlapping k, S', o =>
    ∃ r, MergedSet k {j | j ∈ S ∧ Overlap j k} r ∧ S' = {j | j ∈ S ∧ ¬ Overlap j k} ∪ {r} ∧ o = .key r
  | .insertMergeTouchingOrOverlapping k, S', o =>
    ∃ r, MergedSet k {j | j ∈ S ∧ (Touch j k ∨ Overlap j k)} r ∧
      S' = {j | j ∈ S ∧ ¬ (Touch j k ∨ Overlap j k)} ∪ {r} ∧ o = .key r
  | .insertOverwrite k, S', o =>
    ∃ l, ListsSet l (SetCutReturned S k) ∧ S' = SetCutRemaining S k ∪ {k} ∧ o = .keys l
  | .cut q, S', o => ∃ l, ListsSet l (SetCutReturned S q) ∧ S' = SetCutRemaining S q ∧ o = .keys l
  | .removeOverlapping q, S', o =>
    ∃ l, ListsSet l {j | j ∈ S ∧ Overlap j q} ∧ S' = {j | j ∈ S ∧ ¬ Overlap j q} ∧ o = .keys l
  | .overlapping q, S', o => ∃ l, ListsSet l {j | j ∈ S ∧ Overlap j q} ∧ S' = S ∧ o = .keys l
  | .overlaps q, S', o => ∃ b, (b = true ↔ ∃ j ∈ S, Overlap j q) ∧ S' = S ∧ o = .bool b
  | .gapsUntrimmed q, S', o =>
    ∃ l, ListsIntervals l (fun i => MaximalRun (fun p => ¬ InSome S p) i ∧ Overlap i q) ∧ S' = S ∧ o = .keys l
  | .gapsTrimmed q, S', o =>
    ∃ l, ListsIntervals l (fun i => ∃ g, MaximalRun (fun p => ¬ InSome S p) g ∧ Describes i (fun p => Mem p g ∧ Mem p q)) ∧
      S' = S ∧ o = .keys l
  | .containsInterval q, S', o => ∃ b, (b = true ↔ ∀ p, Mem p q → InSome S p) ∧ S' = S ∧ o = .bool b
  | .getAtPoint p, S', o =>
    ∃ r, (∀ k, r = .ok k ↔ k ∈ S ∧ Mem p k) ∧
      (∀ g, r = .error g → ∃ i, g = ofInterval i ∧ MaximalRun (fun p => ¬ InSome S p) i ∧ Mem p i) ∧
      S' = S ∧ o = .lookup r
  | .containsPoint p, S', o => ∃ b, (b = true ↔ InSome S p) ∧ S' = S ∧ o = .bool b
  | .iter, S', o => ∃ l, ListsSet l S ∧ S' = S ∧ o = .keys l
  | .len, S', o => ∃ l, ListsSet l S ∧ S' = S ∧ o = .nat l.length
  | .isEmpty, S', o => ∃ b, (b = true ↔ ∀ k, k ∉ S) ∧ S' = S ∧ o = .bool b
  | .first, S', o => ∃ r, (∀ k, r = some k ↔ k ∈ S ∧ ∀ j ∈ S, j ≠ k → Before k j) ∧ S' = S ∧ o = .optKey r
  | .last, S', o => ∃ r, (∀ k, r = some k ↔ k ∈ S ∧ ∀ j ∈ S, j ≠ k → Before j k) ∧ S' = S ∧ o = .optKey r

/-- One step of the reference machine: a call with an interval argument that contains no point panics and changes nothing;
every other call returns. A client or its specification, models no lines of `/repo`; the calls are those of `nodit/set.rs`. -/
def SetSpecStep (S : Set K) (op : SetCall I K) (S' : Set K) (o : Res (SetOut K)) : Prop :=
  (op.Bad ∧ S' = S ∧ o = .error .invalidInterval) ∨
  (¬ op.Bad ∧ ∃ out, o = .ok out ∧ SetSpecOp S op S' out)

/-- A history of the reference machine.
A client or its specification, models no lines of `/repo`; the calls are those of `nodit/set.rs`. -/
inductive SetSpecRun : Set K → List (SetCall I K) → Set K → List (Res (SetOut K)) → Prop
  | nil (S) : SetSpecRun S [] S []
  | cons {S S' S'' op ops o os} : SetSpecStep S op S' o → SetSpecRun S' ops S'' os →
      SetSpecRun S (op :: ops) S'' (o :: os)

end
end Nodit.Spec

namespace Nodit.NoditSet
open Spec
variable {I K : Type} [PointType I] [IntervalType I K]

/-- `Result<_, OverlapError<()>>` as an output.
A client or its specification, models no lines of `/repo`; the calls are those of `nodit/set.rs`. -/
def errUnit {α : Type} : Except (OverlapError Unit) α → Except Unit α
  | .ok a => .ok a
  | .error e => .error e.value

/-- One call. The files and lines modelled are those cited at the functions called (`Verif/NoditSet.lean`).
A client or its specification, models no lines of `/repo`; the calls are those of `nodit/set.rs`. -/
def stepCall (s : NoditSet K) : SetCall I K → Res (NoditSet K × SetOut K)
  | .insertStrict k => do let (s, r) ← s.insertStrict k; pure (s, .strict (errUnit r))
  | .insertMergeTouching k => do let (s, r) ← s.insertMergeTouching k; pure (s, .merge (errUnit r))
  | .insertMergeOverlapping k => do let (s, r) ← s.insertMergeOverlapping k; pure (s, .key r)
  | .insertMergeTouchingOrOverlapping k => do let (s, r) ← s.insertMergeTouchingOrOverlapping k; pure (s, .key r)
  | .insertOverwrite k => do let (s, r) ← s.insertOverwrite k; pure (s, .keys r)
  | .cut q => do let (s, r) ← s.cut q; pure (s, .keys r)
  | .removeOverlapping q => do let (s, r) ← s.removeOverlapping q; pure (s, .keys r)
  | .overlapping q => do pure (s, .keys (← s.overlapping q))
  | .overlaps q => do pure (s, .bool (← s.overlaps q))
  | .gapsUntrimmed q => do pure (s, .keys (← s.gapsUntrimmed q))
  | .gapsTrimmed q => do pure (s, .keys (← s.gapsTrimmed q))
  | .containsInterval q => do pure (s, .bool (← s.containsInterval q))
  | .getAtPoint p => do pure (s, .lookup (← s.getAtPoint p))
  | .containsPoint p => do pure (s, .bool (← s.containsPoint p))
  | .iter => pure (s, .keys s.iter)
  | .len => pure (s, .nat s.len)
  | .isEmpty => pure (s, .bool s.isEmpty)
  | .first => pure (s, .optKey s.first)
  | .last => pure (s, .optKey s.last)

/-- A sequence of calls: the final set and what each call returned. A call that panics leaves the set as it was.
A client or its specification, models no lines of `/repo`; the calls are those of `nodit/set.rs`. -/
def runCalls (s : NoditSet K) : List (SetCall I K) → NoditSet K × List (Res (SetOut K))
  | [] => (s, [])
  | op :: ops =>
    match s.stepCall op with
    | .error p => let (s', os) := s.runCalls ops; (s', .error p :: os)
    | .ok (s1, o) => let (s', os) := s1.runCalls ops; (s', .ok o :: os)

/-- The intervals of a set, as seen through `iter()`.
A client or its specification, models no lines of `/repo`; the calls are those of `nodit/set.rs`. -/
def keySet (s : NoditSet K) : Set K := {k | k ∈ s.iter}

end Nodit.NoditSet

namespace Nodit
open Spec
variable {I K : Type}

/-- the map call a set call is made of, `/repo/src/nodit/set.rs:33-176` -/
def Spec.SetCall.toMap : SetCall I K → Op I K Unit
  | .insertStrict k => .insertStrict k ()
  | .insertMergeTouching k => .insertMergeTouching k ()
  | .insertMergeOverlapping k => .insertMergeOverlapping k ()
  | .insertMergeTouchingOrOverlapping k => .insertMergeTouchingOrOverlapping k ()
  | .insertOverwrite k => .insertOverwrite k ()
  | .cut q => .cut q
  | .removeOverlapping q => .removeOverlapping q
  | .overlapping q => .overlapping q
  | .overlaps q => .overlaps q
  | .gapsUntrimmed q => .gapsUntrimmed q
  | .gapsTrimmed q => .gapsTrimmed q
  | .containsInterval q => .containsInterval q
  | .getAtPoint p => .getKeyValueAtPoint p
  | .containsPoint p => .containsPoint p
  | .iter => .iter
  | .len => .len
  | .isEmpty => .isEmpty
  | .first => .firstKeyValue
  | .last => .lastKeyValue

/-- the result of the set call, from that of the map call (`/repo/src/nodit/set.rs:181-183`, `first`; the cases that no set call meets are arbitrary) -/
def Spec.SetOut.ofMap : Out K Unit → SetOut K
  | .bool b => .bool b
  | .nat n => .nat n
  | .entries l => .keys (l.map Prod.fst)
  | .keys l => .keys l
  | .optEntry e => .optKey (e.map Prod.fst)
  | .lookup r => .lookup (r.map Prod.fst)
  | .strict r => .strict r
  | .merge r => .merge r
  | .key k => .key k
  | .unit => .keys []
  | .optValue _ => .keys []

end Nodit
