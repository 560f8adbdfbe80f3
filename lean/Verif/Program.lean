import Mathlib.Logic.Function.Basic
import Verif.CrashSet
import Verif.CrashSpec
import Verif.CrashGq
import Verif.CrashZ
import Verif.Serde
/-!
# Programs with several containers

A program that has several containers of one type in variables: it creates, fills, copies, moves and swaps them, reads them from
serialised data, and calls their methods; every panic, also one of user code in the middle of a call, is caught.
-/
namespace Nodit

namespace Prog

/-- The statements of a program with variables `x y : ι`. `Call` are the method calls of the container, `Src` what a container can be
built from. A client or its specification, models no lines of `/repo`. -/
inductive Stmt (ι Call Src : Type) where
  /-- `x = Container::new();` -/
  | new (x : ι)
  /-- `if let Ok(c) = Container::…(src) { x = c; }` -/
  | build (x : ι) (src : Src)
  /-- `x = y.clone();` (`n`: the number of runs of user code after which the next one panics) -/
  | clone (x y : ι) (n : Option Nat)
  /-- `x = std::mem::take(&mut y);` -/
  | take (x y : ι)
  /-- `std::mem::swap(&mut x, &mut y);` -/
  | swap (x y : ι)
  /-- `x.method(…);` -/
  | call (x : ι) (op : Call)

/-- What a statement returns. A client or its specification, models no lines of `/repo`. -/
inductive StmtOut (Out BOut : Type) where
  | done
  /-- a panic of user code while cloning -/
  | clonePanicked
  | built (o : BOut)
  | returned (o : Out)
deriving DecidableEq

/-- What the language needs to know about a container: its value after `new()`, after a call, after building, and the clone (`none`: a
panic). A client or its specification, models no lines of `/repo`. -/
structure Container (C Call Out Src BOut : Type) where
  new : C
  call : C → Call → C × Out
  build : Src → Option C × BOut
  clone : C → Option Nat → Option C

variable {ι C Call Out Src BOut S : Type} [DecidableEq ι]

/-- One statement: the variables afterwards, and what it returns. A client or its specification, models no lines of `/repo`. -/
def exec (L : Container C Call Out Src BOut) (st : ι → C) : Stmt ι Call Src → (ι → C) × StmtOut Out BOut
  | .new x => (Function.update st x L.new, .done)
  | .build x src =>
    match L.build src with
    | (some c, o) => (Function.update st x c, .built o)
    | (none, o) => (st, .built o)
  | .clone x y n =>
    match L.clone (st y) n with
    | some c => (Function.update st x c, .done)
    | none => (st, .clonePanicked)
  | .take x y => let c := st y; (Function.update (Function.update st y L.new) x c, .done)
  | .swap x y => let c := st y; (Function.update (Function.update st y (st x)) x c, .done)
  | .call x op => let r := L.call (st x) op; (Function.update st x r.1, .returned r.2)

/-- A program: the variables at the end, and what each statement returned.
A client or its specification, models no lines of `/repo`. -/
def execAll (L : Container C Call Out Src BOut) (st : ι → C) : List (Stmt ι Call Src) → (ι → C) × List (StmtOut Out BOut)
  | [] => (st, [])
  | s :: ss => let r := exec L st s; let (st', os) := execAll L r.1 ss; (st', r.2 :: os)

/-! ## The reference -/

/-- The reference for a container: an empty abstract value, what a call does to an abstract value and returns, what building gives.
A client or its specification, models no lines of `/repo`. -/
structure Reference (S Call Out Src BOut : Type) where
  empty : S
  call : S → Call → S → Out → Prop
  build : Src → Option S → BOut → Prop

/-- One statement, on variables that hold abstract values. A clone is the same abstract value, or user code has panicked and nothing has
changed. A client or its specification, models no lines of `/repo`. -/
inductive SpecStmt (R : Reference S Call Out Src BOut) : (ι → S) → Stmt ι Call Src → (ι → S) → StmtOut Out BOut → Prop
  | new (σ x) : SpecStmt R σ (.new x) (Function.update σ x R.empty) .done
  | built {σ x src s o} : R.build src (some s) o → SpecStmt R σ (.build x src) (Function.update σ x s) (.built o)
  | notBuilt {σ x src o} : R.build src none o → SpecStmt R σ (.build x src) σ (.built o)
  | clone (σ x y n) : SpecStmt R σ (.clone x y n) (Function.update σ x (σ y)) .done
  | clonePanicked (σ x y n) : SpecStmt R σ (.clone x y (some n)) σ .clonePanicked
  | take (σ x y) : SpecStmt R σ (.take x y) (fun z => if z = x then σ y else if z = y then R.empty else σ z) .done
  | swap (σ x y) : SpecStmt R σ (.swap x y) (fun z => if z = x then σ y else if z = y then σ x else σ z) .done
  | call {σ x op s o} : R.call (σ x) op s o → SpecStmt R σ (.call x op) (Function.update σ x s) (.returned o)

/-- A program on variables that hold abstract values. A client or its specification, models no lines of `/repo`. -/
inductive SpecProg (R : Reference S Call Out Src BOut) : (ι → S) → List (Stmt ι Call Src) → (ι → S) → List (StmtOut Out BOut) → Prop
  | nil (σ) : SpecProg R σ [] σ []
  | cons {σ σ' σ'' s ss o os} : SpecStmt R σ s σ' o → SpecProg R σ' ss σ'' os → SpecProg R σ (s :: ss) σ'' (o :: os)

end Prog

open Spec

/-! ## `NoditMap` -/

/-- the sources of a container with elements of type `X`. A client or its specification, models no lines of `/repo`. -/
inductive Source (X E : Type) where
  /-- `from_iter_strict` -/
  | iter (l : List X)
  /-- `from_slice_strict` -/
  | slice (l : List X)
  /-- `Deserialize::deserialize`, with the results of the successive `next_element()` calls -/
  | serde (input : List (Except E X))

/-- what building returns: `Ok`, the value of the `OverlapError`, the error of deserialisation, or a panic.
A client or its specification, models no lines of `/repo`. -/
inductive SourceOut (W E : Type) where
  | iter (r : Res (Except W Unit))
  | serde (r : Res (Except (DeError E) Unit))

namespace NoditMap
variable {I K V E : Type} [PointType I] [IntervalType I K]

/-- the derived `Clone`, `/repo/src/nodit/map.rs:58`: the clone of the `BTreeMap` copies the keys (`K: Copy`) and clones the values in
order, with user code (`V::clone`) running once per entry. The clone of a value is the value (C98 treats other clones). If a clone
panics, the copy made so far is dropped. -/
def clone (m : NoditMap K V) : Option Nat → Option (NoditMap K V)
  | none => some ⟨m.inner⟩
  | some n => if m.inner.length ≤ n then some ⟨m.inner⟩ else none

/-- the part that is not an error or a panic. A client or its specification, models no lines of `/repo`. -/
def okPart {A B : Type} : Res (Except A B) → Option B
  | .ok (.ok b) => some b
  | _ => none

/-- `from_iter_strict`, `from_slice_strict`, `deserialize`, `/repo/src/nodit/map.rs:1206-1248, 1463-1513`: the result and the map in it -/
def build : Source (K × V) E → Option (NoditMap K V) × SourceOut V E
  | .iter l => let r := fromIterStrict l; (okPart r, .iter (r.map (fun r => match r with | .ok _ => .ok () | .error e => .error e.value)))
  | .slice l => let r := fromSliceStrict l; (okPart r, .iter (r.map (fun r => match r with | .ok _ => .ok () | .error e => .error e.value)))
  | .serde input => let r := deserialize input; (okPart r, .serde (r.map (fun r => r.map (fun _ => ()))))

/-- `NoditMap` as a container of programs; a call comes with the number of runs of user code after which the next one panics.
A client or its specification, models no lines of `/repo`. -/
def asContainer [BEq V] : Prog.Container (NoditMap K V) (Op I K V × Option Nat) (Except Crash.Stop (Out K V)) (Source (K × V) E) (SourceOut V E) where
  new := new
  call m op := let r := Crash.step op.1 m op.2; (r.2.1, r.1)
  build := build
  clone := clone
end NoditMap

namespace NoditSet
variable {I K E : Type} [PointType I] [IntervalType I K]

/-- the derived `Clone`, `/repo/src/nodit/set.rs:22`: that of the inner map, whose values `()` run no user code -/
def clone (s : NoditSet K) : NoditSet K := ⟨⟨s.inner.inner⟩⟩

/-- `from_iter_strict`, `from_slice_strict`, `deserialize`, `/repo/src/nodit/set.rs:129-150, 251-298`: the result and the set in it -/
def build : Source K E → Option (NoditSet K) × SourceOut Unit E
  | .iter l => let r := fromIterStrict l; (NoditMap.okPart r, .iter (r.map (fun r => match r with | .ok _ => .ok () | .error e => .error e.value)))
  | .slice l => let r := fromSliceStrict l; (NoditMap.okPart r, .iter (r.map (fun r => match r with | .ok _ => .ok () | .error e => .error e.value)))
  | .serde input => let r := deserialize input; (NoditMap.okPart r, .serde (r.map (fun r => r.map (fun _ => ()))))

/-- `NoditSet` as a container of programs. A client or its specification, models no lines of `/repo`. -/
def asContainer : Prog.Container (NoditSet K) (SetCall I K × Option Nat) (Except Crash.Stop (SetOut K)) (Source K E) (SourceOut Unit E) where
  new := new
  call s op := let r := Crash.setStep op.1 s op.2; (r.2.1, r.1)
  build := build
  clone s _ := some s.clone
end NoditSet

namespace ZosditMap
variable {I K V E : Type} [PointType I] [IntervalType I K]

/-- the derived `Clone`, `/repo/src/zosdit/map.rs:61`: the counter is copied, the stores are cloned, with user code running once per
value -/
def clone (m : ZosditMap K V) : Option Nat → Option (ZosditMap K V)
  | none => some ⟨m.len, m.inner⟩
  | some n => if m.iter.length ≤ n then some ⟨m.len, m.inner⟩ else none

/-- `from_iter_strict_back`, `from_slice_strict_back`, `deserialize`, `/repo/src/zosdit/map.rs:571-614, 668-719`: the result and the map
in it (`picks` for the inserts, see `entryPush`) -/
def build (picks : Nat → Nat) : Source (K × V) E → Option (ZosditMap K V) × SourceOut V E
  | .iter l => let r := fromIterStrictBack l picks; (NoditMap.okPart r, .iter (r.map (fun r => match r with | .ok _ => .ok () | .error e => .error e.value)))
  | .slice l => let r := fromSliceStrictBack l picks; (NoditMap.okPart r, .iter (r.map (fun r => match r with | .ok _ => .ok () | .error e => .error e.value)))
  | .serde input => let r := deserialize input picks; (NoditMap.okPart r, .serde (r.map (fun r => r.map (fun _ => ()))))

/-- `ZosditMap` as a container of programs. A client or its specification, models no lines of `/repo`. -/
def asContainer : Prog.Container (ZosditMap K V) (ZOp I K V × Option Nat) (Except Crash.Stop (ZOut K V)) ((Nat → Nat) × Source (K × V) E) (SourceOut V E) where
  new := new
  call m op := let r := Crash.zStep op.1 m op.2; (r.2.1, r.1)
  build src := build src.1 src.2
  clone := clone
end ZosditMap

namespace Spec
variable {I K V E : Type} [PointType I] [IntervalType I K]

/-- The first element of `l` that is unusable - its interval contains no point, or clashes with an earlier one - comes after `pre`.
A client or its specification, models no lines of `/repo`. -/
inductive FirstBad {X : Type} (key : X → K) (clash : K → K → Prop) (pre : List X) (x : X) : Prop
  | intro (valid : ∀ y ∈ pre, Valid (key y)) (apart : pre.Pairwise (fun a b => ¬ clash (key a) (key b)))
      (bad : ¬ Valid (key x) ∨ ∃ y ∈ pre, clash (key y) (key x))

/-- What building from given elements must return: the elements, if all of them are usable; otherwise the first unusable one decides:
a panic if its interval contains no point, else an error. `value x` is what the error of `from_iter_strict` gives back.
A client or its specification, models no lines of `/repo`. -/
def BuildsFrom {X W : Type} (key : X → K) (clash : K → K → Prop) (value : X → W) (message : String) : Source X E → Option (List X) → SourceOut W E → Prop
  | .iter l, r, o | .slice l, r, o =>
    ((∀ x ∈ l, Valid (key x)) ∧ l.Pairwise (fun a b => ¬ clash (key a) (key b)) ∧ r = some l ∧ o = .iter (.ok (.ok ()))) ∨
    ∃ (pre : List X) (x : X) (post : List X), l = pre ++ x :: post ∧ FirstBad key clash pre x ∧ r = none ∧
      ((¬ Valid (key x) ∧ o = .iter (.error .invalidInterval)) ∨ (Valid (key x) ∧ o = .iter (.ok (.error (value x)))))
  | .serde input, r, o =>
    (∃ l : List X, input = l.map .ok ∧ (∀ x ∈ l, Valid (key x)) ∧ l.Pairwise (fun a b => ¬ clash (key a) (key b)) ∧ r = some l ∧ o = .serde (.ok (.ok ()))) ∨
    (∃ (pre : List X) (e : E) (post : List (Except E X)), input = pre.map .ok ++ .error e :: post ∧ (∀ x ∈ pre, Valid (key x)) ∧ pre.Pairwise (fun a b => ¬ clash (key a) (key b)) ∧
      r = none ∧ o = .serde (.ok (.error (.format e)))) ∨
    ∃ (pre : List X) (x : X) (post : List (Except E X)), input = pre.map .ok ++ .ok x :: post ∧ FirstBad key clash pre x ∧ r = none ∧
      ((¬ Valid (key x) ∧ o = .serde (.error .invalidInterval)) ∨ (Valid (key x) ∧ o = .serde (.ok (.error (.custom message)))))

/-- The reference for `NoditMap`: a set of entries. A client or its specification, models no lines of `/repo`. -/
def mapReference [BEq V] : Prog.Reference (Set (K × V)) (Op I K V × Option Nat) (Except Crash.Stop (Out K V)) (Source (K × V) E) (SourceOut V E) where
  empty := ∅
  call S op S' o := CrashStep S op.1 S' o ∧ (op.2 = none → o ≠ .error .user)
  build src S o := ∃ r, BuildsFrom Prod.fst Overlap Prod.snd "intervals overlap" src r o ∧ S = r.map (fun l => {e | e ∈ l})

/-- The reference for `NoditSet`: a set of intervals. A client or its specification, models no lines of `/repo`. -/
def setReference : Prog.Reference (Set K) (SetCall I K × Option Nat) (Except Crash.Stop (SetOut K)) (Source K E) (SourceOut Unit E) where
  empty := ∅
  call S op S' o := SetCrashStep S op.1 S' o ∧ (op.2 = none → o ≠ .error .user)
  build src S o := ∃ r, BuildsFrom id Overlap (fun _ => ()) "intervals overlap" src r o ∧ S = r.map (fun l => {k | k ∈ l})

open Classical in
/-- The state of the reference machine for a `ZosditMap` built from the elements `l`: they are brought in order, with the elements of one
interval in the given order, all under the key given first for it. A client or its specification, models no lines of `/repo`. -/
def ZBuilt (l : List (K × V)) (s : ZState K V) : Prop :=
  ZWF s.entries ∧ s.entries.length = l.length ∧ (∀ e ∈ s.entries, GivenFirst e.1 l) ∧
  (∀ q : Interval I, Valid q → (s.entries.filter (fun e => SameInterval e.1 q)).map Prod.snd =
    (l.filter (fun e => SameInterval e.1 q)).map Prod.snd) ∧
  s.removed = 0 ∧ s.wasCut = false

/-- The reference for `ZosditMap`: the reference machine of `Verif/ZSpec.lean`.
A client or its specification, models no lines of `/repo`. -/
def zReference : Prog.Reference (ZState K V) (ZOp I K V × Option Nat) (Except Crash.Stop (ZOut K V)) ((Nat → Nat) × Source (K × V) E)
    (SourceOut V E) where
  empty := ⟨[], 0, false⟩
  call s op s' o := ZCrashStep s op.1 s' o ∧ (op.2 = none → o ≠ .error .user)
  build src S o := ∃ r, BuildsFrom Prod.fst (fun a b => ¬ ZeroOverlap a b) Prod.snd "intervals non-zero-overlap" src.2 r o ∧
    ((r = none ∧ S = none) ∨ ∃ l s, r = some l ∧ S = some s ∧ ZBuilt l s)
end Spec

/-! ## `Gqdit`

`append` needs two containers, so `Gqdit`s have their own statements. -/
namespace Gqdit
variable {ι I K D E : Type} [PointType I] [IntervalType I K] [DecidableEq D] [DecidableEq ι]

/-- The statements of a program with `Gqdit`s in the variables `x y : ι` (`n`: the number of runs of user code after which the next one
panics). A client or its specification, models no lines of `/repo`. -/
inductive Stmt (ι I K D E : Type) where
  | new (x : ι)
  /-- `if let Ok(g) = Gqdit::deserialize(…) { x = g; }` -/
  | read (x : ι) (input : List (Except E (K × Finset D)))
  | clone (x y : ι) (n : Option Nat)
  /-- `x = std::mem::take(&mut y);` -/
  | take (x y : ι)
  | swap (x y : ι)
  | call (x : ι) (op : GqOp I K D) (n : Option Nat)
  /-- `x.append(&mut y);` (for `x = y` rejected by the compiler; here it does nothing) -/
  | append (x y : ι) (n : Option Nat)
  | identifiersAtPoint (x : ι) (p : I)
  | gapsNoIdentifier (x : ι) (q : Interval I)
  | gapsWithIdentifier (x : ι) (d : D) (q : Interval I)

/-- What a statement returns. A client or its specification, models no lines of `/repo`. -/
inductive StmtOut (K D E : Type) where
  | done
  | panicked (p : Crash.Stop)
  | read (r : Res (Except (DeError E) Unit))
  | identifiers (ids : Finset D)
  | gaps (l : List K)

/-- the derived `Clone`, `/repo/src/gqdit/mod.rs:66`: the clones of the inner map and of its sets run `D::clone` once per identifier -/
def clone (g : Gqdit K D) : Option Nat → Option (Gqdit K D)
  | none => some ⟨⟨g.inner.inner⟩⟩
  | some n => if (g.inner.inner.map (fun e => e.2.card)).sum ≤ n then some ⟨⟨g.inner.inner⟩⟩ else none

/-- One statement: the variables afterwards, and what it returns. A client or its specification, models no lines of `/repo`. -/
def exec (st : ι → Gqdit K D) : Stmt ι I K D E → (ι → Gqdit K D) × StmtOut K D E
  | .new x =>
    match (new : Res (Gqdit K D)) with
    | .ok g => (Function.update st x g, .done)
    | .error p => (st, .panicked (.crate p))
  | .read x input =>
    let r := deserialize input
    ((match NoditMap.okPart r with
      | some g => Function.update st x g
      | none => st), .read (r.map (fun r => r.map (fun _ => ()))))
  | .clone x y n =>
    match (st y).clone n with
    | some g => (Function.update st x g, .done)
    | none => (st, .panicked .user)
  | .take x y =>
    match (new : Res (Gqdit K D)) with
    | .ok g => let c := st y; (Function.update (Function.update st y g) x c, .done)
    | .error p => (st, .panicked (.crate p))
  | .swap x y => let c := st y; (Function.update (Function.update st y (st x)) x c, .done)
  | .call x op n =>
    let r := Crash.gqStep op (st x) n
    (Function.update st x r.2.1, match r.1 with | .ok () => .done | .error p => .panicked p)
  | .append x y n =>
    if x = y then (st, .done)
    else
      let r := Crash.append (st x, st y) n
      (Function.update (Function.update st x r.2.1.1) y r.2.1.2, match r.1 with | .ok () => .done | .error p => .panicked p)
  | .identifiersAtPoint x p =>
    (st, match (st x).identifiersAtPoint p with | .ok ids => .identifiers ids | .error p => .panicked (.crate p))
  | .gapsNoIdentifier x q => (st, match (st x).gapsNoIdentifier q with | .ok l => .gaps l | .error p => .panicked (.crate p))
  | .gapsWithIdentifier x d q => (st, match (st x).gapsWithIdentifier d q with | .ok l => .gaps l | .error p => .panicked (.crate p))

/-- A program: the variables at the end, and what each statement returned.
A client or its specification, models no lines of `/repo`. -/
def execAll (st : ι → Gqdit K D) : List (Stmt ι I K D E) → (ι → Gqdit K D) × List (StmtOut K D E)
  | [] => (st, [])
  | s :: ss => let r := exec st s; let (st', os) := execAll r.1 ss; (st', r.2 :: os)
end Gqdit

namespace Spec
open Gqdit
variable {ι I K D E : Type} [PointType I] [IntervalType I K] [DecidableEq D] [DecidableEq ι]

open Classical in
/-- what a call makes of the contents (`none`: no stored interval contains the point, nothing can be held there).
A client or its specification, models no lines of `/repo`. -/
noncomputable def GqOp.apply (f : I → Option (Finset D)) : GqOp I K D → I → Option (Finset D)
  | .insert ids k, p => if Mem p k then (f p).map (fun s => s ∪ ids) else f p
  | .cutWithIdentifiers ids q, p => if Mem p q then (f p).map (fun s => s \ ids) else f p
  | .cutAllIdentifiers q, p => if Mem p q then (f p).map (fun _ => ∅) else f p

/-- One statement, on variables that hold for each point the identifiers there, if any can be held there.
A client or its specification, models no lines of `/repo`. -/
inductive GqSpecStmt : (ι → I → Option (Finset D)) → Stmt ι I K D E → (ι → I → Option (Finset D)) → StmtOut K D E → Prop
  | new (σ x) : GqSpecStmt σ (.new x) (Function.update σ x (fun _ => some ∅)) .done
  | read {σ x input l f o} : BuildsFrom Prod.fst Overlap Prod.snd "intervals overlap" (.serde input) (some l) (.serde o) →
      (∀ p s, f p = some s ↔ ∃ e ∈ l, Mem p e.1 ∧ e.2 = s) → GqSpecStmt σ (.read x input) (Function.update σ x f) (.read o)
  | notRead {σ x input o} : BuildsFrom Prod.fst Overlap Prod.snd "intervals overlap" (.serde input) none (.serde o) →
      GqSpecStmt σ (.read x input) σ (.read o)
  | clone (σ x y n) : GqSpecStmt σ (.clone x y n) (Function.update σ x (σ y)) .done
  | clonePanicked (σ x y n) : GqSpecStmt σ (.clone x y (some n)) σ (.panicked .user)
  | take (σ x y) : GqSpecStmt σ (.take x y) (fun z => if z = x then σ y else if z = y then fun _ => some ∅ else σ z) .done
  | swap (σ x y) : GqSpecStmt σ (.swap x y) (fun z => if z = x then σ y else if z = y then σ x else σ z) .done
  | call {σ x op n} : ¬ op.Bad → GqSpecStmt σ (.call x op n) (Function.update σ x (op.apply (σ x))) .done
  | rejected {σ x op n} : op.Bad → GqSpecStmt σ (.call x op n) σ (.panicked (.crate .invalidInterval))
  | callPanicked {σ x op n f} : (∀ p, f p = none ∨ f p = σ x p ∨ f p = op.apply (σ x) p) →
      GqSpecStmt σ (.call x op (some n)) (Function.update σ x f) (.panicked .user)
  | appendSelf (σ x n) : GqSpecStmt σ (.append x x n) σ .done
  | append {σ x y n} : x ≠ y → GqSpecStmt σ (.append x y n)
      (fun z => if z = x then fun p => (σ x p).map (fun s => s ∪ (σ y p).getD ∅) else if z = y then fun _ => none else σ z) .done
  | appendPanicked {σ x y n f f'} : x ≠ y →
      (∀ p, f p = none ∨ f p = σ x p ∨ f p = (σ x p).map (fun s => s ∪ (σ y p).getD ∅)) → (∀ p, f' p = none ∨ f' p = σ y p) →
      GqSpecStmt σ (.append x y (some n)) (fun z => if z = x then f else if z = y then f' else σ z) (.panicked .user)
  | identifiersAtPoint (σ x p) : GqSpecStmt σ (.identifiersAtPoint x p) σ (.identifiers ((σ x p).getD ∅))
  | gapsNoRejected {σ x q} : ¬ Valid q → GqSpecStmt σ (.gapsNoIdentifier x q) σ (.panicked (.crate .invalidInterval))
  | gapsNo {σ x q l} : Valid q → Ascending l → (∀ k ∈ l, Overlap k q) → (∀ k ∈ l, ∀ p, Mem p k → σ x p = some ∅) →
      (∀ p, Mem p q → σ x p = some ∅ → ∃ k ∈ l, Mem p k) → GqSpecStmt σ (.gapsNoIdentifier x q) σ (.gaps l)
  | gapsWithRejected {σ x d q} : ¬ Valid q → GqSpecStmt σ (.gapsWithIdentifier x d q) σ (.panicked (.crate .invalidInterval))
  | gapsWith {σ x d q l} : Valid q → Ascending l → (∀ i : Interval I, MaximalRun (GapWith (σ x) d q) i ↔ ∃ k ∈ l, SameInterval k i) →
      GqSpecStmt σ (.gapsWithIdentifier x d q) σ (.gaps l)

/-- A program on variables that hold contents. A client or its specification, models no lines of `/repo`. -/
inductive GqSpecProg : (ι → I → Option (Finset D)) → List (Stmt ι I K D E) → (ι → I → Option (Finset D)) → List (StmtOut K D E) → Prop
  | nil (σ) : GqSpecProg σ [] σ []
  | cons {σ σ' σ'' s ss o os} : GqSpecStmt σ s σ' o → GqSpecProg σ' ss σ'' os → GqSpecProg σ (s :: ss) σ'' (o :: os)
end Spec
end Nodit
