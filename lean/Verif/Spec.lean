import Verif.Interval
import Mathlib.Data.Set.Basic
import Mathlib.Data.Finset.Basic
/-!
# Specification vocabulary

Everything here is phrased in terms of *points*: the only model functions used are the accessors `start` and
`stop` of an interval and its conversion `ofInterval`. No definition of this file refers to a search, a comparator,
a cursor, or `MIN`/`MAX`/`up`/`down`.
-/
namespace Nodit.Spec

section
variable {I K A B V : Type} [PointType I] [IntervalType I K] [IntervalType I A] [IntervalType I B]

/-- the point `p` lies in the (inclusive) interval `k` -/
def Mem (p : I) (k : K) : Prop := start k ≤ p ∧ p ≤ stop k

/-- the interval contains a point -/
def Valid (k : K) : Prop := ∃ p, Mem p k

/-- the intervals share a point -/
def Overlap (a : A) (b : B) : Prop := ∃ p, Mem p a ∧ Mem p b

/-- every point of `a` is below every point of `b` -/
def Before (a : A) (b : B) : Prop := ∀ p q, Mem p a → Mem q b → p < q

/-- the intervals share no point, and no point lies strictly between them -/
def Touch (a : A) (b : B) : Prop :=
  ¬ Overlap a b ∧
    ∀ p, ¬ ((∀ x, Mem x a → x < p) ∧ (∀ y, Mem y b → p < y)) ∧
         ¬ ((∀ y, Mem y b → y < p) ∧ (∀ x, Mem x a → p < x))

/-- `i` is a (non-empty) interval whose points are exactly those satisfying `P` -/
def Describes (i : Interval I) (P : I → Prop) : Prop := Valid i ∧ ∀ p, Mem p i ↔ P p

/-- `i` is a maximal run of points satisfying `P`: non-empty, all its points satisfy `P`, and it includes every
interval of such points that meets it -/
def MaximalRun (P : I → Prop) (i : Interval I) : Prop :=
  Valid i ∧ (∀ p, Mem p i → P p) ∧
    ∀ j : Interval I, (∀ p, Mem p j → P p) → Overlap i j → ∀ p, Mem p j → Mem p i

/-- the entries are valid intervals, in ascending order, and no two of them share a point -/
def WF (l : List (K × V)) : Prop :=
  (∀ e ∈ l, Valid e.1) ∧ l.Pairwise (fun a b => Before a.1 b.1)

/-- as `WF`, for a list of intervals -/
def Ascending (l : List K) : Prop := (∀ k ∈ l, Valid k) ∧ l.Pairwise Before

/-- some entry contains the point -/
def Covered (S : Set (K × V)) (p : I) : Prop := ∃ e ∈ S, Mem p e.1

/-- `l` lists the entries of `S`, each once, in ascending order -/
def Lists (l : List (K × V)) (S : Set (K × V)) : Prop := WF l ∧ ∀ e, e ∈ l ↔ e ∈ S

/-- `l` lists the intervals satisfying `P` (converted to the user's interval type), ascending -/
def ListsIntervals (l : List K) (P : Interval I → Prop) : Prop :=
  Ascending l ∧ ∀ k, k ∈ l ↔ ∃ i, k = ofInterval i ∧ P i

/-- `k` has a point below all of `a` and a point above all of `a` -/
def StrictlyInside (a : A) (k : K) : Prop :=
  (∃ p, Mem p k ∧ ∀ x, Mem x a → p < x) ∧ (∃ p, Mem p k ∧ ∀ x, Mem x a → x < p)

/-- `r` is the interval resulting from merging the interval `k` with the entries in `T`: it has exactly the points
of `k` and of the entries in `T`. It is the caller's `k` itself (with whatever else a user's interval type
carries) if there is nothing to merge at or beyond the ends of `k`, otherwise it is built with `From<Interval>`. -/
def MergedKey (k : K) (T : Set (K × V)) (r : K) : Prop :=
  (∀ p, Mem p r ↔ Mem p k ∨ ∃ e ∈ T, Mem p e.1) ∧
  ((∀ e ∈ T, StrictlyInside e.1 k) → r = k) ∧
  ((∃ e ∈ T, ¬ StrictlyInside e.1 k) → ∃ i, r = ofInterval i)

/-- what `cut(q)` leaves: untouched entries, and the non-empty parts below and above `q` of the entries that
overlap `q` -/
def CutRemaining (S : Set (K × V)) (q : A) : Set (K × V) :=
  {e | (e ∈ S ∧ ¬ Overlap e.1 q) ∨
       ∃ f ∈ S, Overlap f.1 q ∧ ∃ i, e = (ofInterval i, f.2) ∧
         (Describes i (fun p => Mem p f.1 ∧ ∀ x, Mem x q → p < x) ∨
          Describes i (fun p => Mem p f.1 ∧ ∀ x, Mem x q → x < p))}

/-- what `cut(q)` returns: the non-empty parts of the entries inside `q` -/
def CutReturned (S : Set (K × V)) (q : A) : Set (K × V) :=
  {e | ∃ f ∈ S, ∃ i, e = (ofInterval i, f.2) ∧ Describes i (fun p => Mem p f.1 ∧ Mem p q)}
end

/-! ## The reference machine for `NoditMap` -/

/-- Calls of the `NoditMap` API. Query intervals are of type `Interval I` and, like the key arguments, may be
invalid. Methods handing out `&mut V` come with what the caller does to the values. -/
inductive Op (I K V : Type) where
  | insertStrict (k : K) (v : V)
  | insertMergeTouching (k : K) (v : V)
  | insertMergeTouchingIfValuesEqual (k : K) (v : V)
  | insertMergeOverlapping (k : K) (v : V)
  | insertMergeTouchingOrOverlapping (k : K) (v : V)
  | insertOverwrite (k : K) (v : V)
  | cut (q : Interval I)
  | removeOverlapping (q : Interval I)
  | overlapping (q : Interval I)
  | overlaps (q : Interval I)
  | gapsUntrimmed (q : Interval I)
  | gapsTrimmed (q : Interval I)
  | containsInterval (q : Interval I)
  | overlappingMut (q : Interval I) (f : K → V → V)
  | getAtPoint (p : I)
  | getKeyValueAtPoint (p : I)
  | containsPoint (p : I)
  | getAtPointMut (p : I) (f : V → V)
  | iterMut (f : K → V → V)
  | iter
  | len
  | isEmpty
  | firstKeyValue
  | lastKeyValue

/-- What a call returns. -/
inductive Out (K V : Type) where
  | unit
  | bool (b : Bool)
  | nat (n : Nat)
  | entries (l : List (K × V))
  | keys (l : List K)
  | optValue (v : Option V)
  | optEntry (e : Option (K × V))
  /-- `Ok(entry)` or `Err(gap)` of `get_key_value_at_point` -/
  | lookup (r : Except K (K × V))
  /-- `Ok(())` or `Err(OverlapError { value })` -/
  | strict (r : Except V Unit)
  /-- `Ok(merged)` or `Err(OverlapError { value })` -/
  | merge (r : Except V K)
  | key (k : K)

section
variable {I K V : Type} [PointType I] [IntervalType I K]

/-- the interval argument, if there is one, contains no point -/
def Op.Bad : Op I K V → Prop
  | .insertStrict k _ | .insertMergeTouching k _ | .insertMergeTouchingIfValuesEqual k _
  | .insertMergeOverlapping k _ | .insertMergeTouchingOrOverlapping k _ | .insertOverwrite k _ => ¬ Valid k
  | .cut q | .removeOverlapping q | .overlapping q | .overlaps q | .gapsUntrimmed q | .gapsTrimmed q
  | .containsInterval q | .overlappingMut q _ => ¬ Valid q
  | _ => False

/-- Effect and result of a call with valid arguments on a set of entries: `SpecOp S op S' o`. -/
def SpecOp [BEq V] (S : Set (K × V)) : Op I K V → Set (K × V) → Out K V → Prop
  | .insertStrict k v, S', o =>
    ((∃ e ∈ S, Overlap e.1 k) → S' = S ∧ o = .strict (.error v)) ∧
    ((¬ ∃ e ∈ S, Overlap e.1 k) → S' = S ∪ {(k, v)} ∧ o = .strict (.ok ()))
  | .insertMergeTouching k v, S', o =>
    ((∃ e ∈ S, Overlap e.1 k) → S' = S ∧ o = .merge (.error v)) ∧
    ((¬ ∃ e ∈ S, Overlap e.1 k) →
      ∃ r, MergedKey k {e | e ∈ S ∧ Touch e.1 k} r ∧
        S' = {e | e ∈ S ∧ ¬ Touch e.1 k} ∪ {(r, v)} ∧ o = .merge (.ok r))
  | .insertMergeTouchingIfValuesEqual k v, S', o =>
    ((∃ e ∈ S, Overlap e.1 k) → S' = S ∧ o = .merge (.error v)) ∧
    ((¬ ∃ e ∈ S, Overlap e.1 k) →
      ∃ r, MergedKey k {e | e ∈ S ∧ Touch e.1 k ∧ (e.2 == v) = true} r ∧
        S' = {e | e ∈ S ∧ ¬ (Touch e.1 k ∧ (e.2 == v) = true)} ∪ {(r, v)} ∧ o = .merge (.ok r))
  | .insertMergeOverlapping k v, S', o =>
    ∃ r, MergedKey k {e | e ∈ S ∧ Overlap e.1 k} r ∧
      S' = {e | e ∈ S ∧ ¬ Overlap e.1 k} ∪ {(r, v)} ∧ o = .key r
  | .insertMergeTouchingOrOverlapping k v, S', o =>
    ∃ r, MergedKey k {e | e ∈ S ∧ (Touch e.1 k ∨ Overlap e.1 k)} r ∧
      S' = {e | e ∈ S ∧ ¬ (Touch e.1 k ∨ Overlap e.1 k)} ∪ {(r, v)} ∧ o = .key r
  | .insertOverwrite k v, S', o =>
    ∃ l, Lists l (CutReturned S k) ∧ S' = CutRemaining S k ∪ {(k, v)} ∧ o = .entries l
  | .cut q, S', o => ∃ l, Lists l (CutReturned S q) ∧ S' = CutRemaining S q ∧ o = .entries l
  | .removeOverlapping q, S', o =>
    ∃ l, Lists l {e | e ∈ S ∧ Overlap e.1 q} ∧ S' = {e | e ∈ S ∧ ¬ Overlap e.1 q} ∧ o = .entries l
  | .overlapping q, S', o => ∃ l, Lists l {e | e ∈ S ∧ Overlap e.1 q} ∧ S' = S ∧ o = .entries l
  | .overlaps q, S', o => ∃ b, (b = true ↔ ∃ e ∈ S, Overlap e.1 q) ∧ S' = S ∧ o = .bool b
  | .gapsUntrimmed q, S', o =>
    ∃ l, ListsIntervals l (fun i => MaximalRun (fun p => ¬ Covered S p) i ∧ Overlap i q) ∧
      S' = S ∧ o = .keys l
  | .gapsTrimmed q, S', o =>
    ∃ l, ListsIntervals l (fun i => ∃ g, MaximalRun (fun p => ¬ Covered S p) g ∧
        Describes i (fun p => Mem p g ∧ Mem p q)) ∧
      S' = S ∧ o = .keys l
  | .containsInterval q, S', o =>
    ∃ b, (b = true ↔ ∀ p, Mem p q → Covered S p) ∧ S' = S ∧ o = .bool b
  | .overlappingMut q f, S', o =>
    S' = {e | ∃ d ∈ S, (Overlap d.1 q ∧ e = (d.1, f d.1 d.2)) ∨ (¬ Overlap d.1 q ∧ e = d)} ∧ o = .unit
  | .getAtPoint p, S', o =>
    ∃ r, (∀ v, r = some v ↔ ∃ e ∈ S, Mem p e.1 ∧ e.2 = v) ∧ S' = S ∧ o = .optValue r
  | .getKeyValueAtPoint p, S', o =>
    ∃ r, (∀ e, r = .ok e ↔ e ∈ S ∧ Mem p e.1) ∧
      (∀ g, r = .error g → ∃ i, g = ofInterval i ∧ MaximalRun (fun p => ¬ Covered S p) i ∧ Mem p i) ∧
      S' = S ∧ o = .lookup r
  | .containsPoint p, S', o => ∃ b, (b = true ↔ Covered S p) ∧ S' = S ∧ o = .bool b
  | .getAtPointMut p f, S', o =>
    ∃ r, (∀ v, r = some v ↔ ∃ e ∈ S, Mem p e.1 ∧ e.2 = v) ∧
      S' = {e | ∃ d ∈ S, (Mem p d.1 ∧ e = (d.1, f d.2)) ∨ (¬ Mem p d.1 ∧ e = d)} ∧ o = .optValue r
  | .iterMut f, S', o => S' = {e | ∃ d ∈ S, e = (d.1, f d.1 d.2)} ∧ o = .unit
  | .iter, S', o => ∃ l, Lists l S ∧ S' = S ∧ o = .entries l
  | .len, S', o => ∃ l, Lists l S ∧ S' = S ∧ o = .nat l.length
  | .isEmpty, S', o => ∃ b, (b = true ↔ ∀ e, e ∉ S) ∧ S' = S ∧ o = .bool b
  | .firstKeyValue, S', o =>
    ∃ r, (∀ e, r = some e ↔ e ∈ S ∧ ∀ d ∈ S, d ≠ e → Before e.1 d.1) ∧ S' = S ∧ o = .optEntry r
  | .lastKeyValue, S', o =>
    ∃ r, (∀ e, r = some e ↔ e ∈ S ∧ ∀ d ∈ S, d ≠ e → Before d.1 e.1) ∧ S' = S ∧ o = .optEntry r

/-- One step of the reference machine: a call with an interval argument that contains no point panics and
changes nothing; every other call returns. -/
def SpecStep [BEq V] (S : Set (K × V)) (op : Op I K V) (S' : Set (K × V)) (o : Res (Out K V)) : Prop :=
  (op.Bad ∧ S' = S ∧ o = .error .invalidInterval) ∨
  (¬ op.Bad ∧ ∃ out, o = .ok out ∧ SpecOp S op S' out)

/-- A history of the reference machine. -/
inductive SpecRun [BEq V] : Set (K × V) → List (Op I K V) → Set (K × V) → List (Res (Out K V)) → Prop
  | nil (S) : SpecRun S [] S []
  | cons {S S' S'' op ops o os} : SpecStep S op S' o → SpecRun S' ops S'' os →
      SpecRun S (op :: ops) S'' (o :: os)

/-! ## The reference partial function -/

/-- The calls whose effect on the point-wise contents can be told from the point-wise contents: strict and
overwriting inserts, the insert merging equal-valued neighbours, `cut`, and all queries. -/
def Op.Pointwise : Op I K V → Prop
  | .insertMergeTouching _ _ | .insertMergeOverlapping _ _ | .insertMergeTouchingOrOverlapping _ _
  | .removeOverlapping _ | .overlappingMut _ _ | .getAtPointMut _ _ | .iterMut _ => False
  | _ => True

/-- The changing calls that join what they insert with its equal-valued neighbours or only take away, and all queries:
`insert_merge_touching_if_values_equal`, `cut`, `remove_overlapping`. -/
def Op.Coalescing : Op I K V → Prop
  | .insertStrict _ _ | .insertMergeTouching _ _ | .insertMergeOverlapping _ _ | .insertMergeTouchingOrOverlapping _ _
  | .insertOverwrite _ _ | .overlappingMut _ _ | .getAtPointMut _ _ | .iterMut _ => False
  | _ => True

open Classical in
/-- Their effect on a partial function from points to values. -/
noncomputable def pointStep (f : I → Option V) : Op I K V → I → Option V
  | .insertStrict k v | .insertMergeTouchingIfValuesEqual k v => fun p =>
    if Mem p k ∧ ∀ x, Mem x k → f x = none then some v else f p
  | .insertOverwrite k v => fun p => if Mem p k then some v else f p
  | .cut q => fun p => if Mem p q then none else f p
  | _ => f

/-! ## The reference set of points for `NoditSet` -/

/-- The changing calls of the `NoditSet` API. -/
inductive SetOp (I K : Type) where
  | insertStrict (k : K)
  | insertMergeTouching (k : K)
  | insertMergeOverlapping (k : K)
  | insertMergeTouchingOrOverlapping (k : K)
  | insertOverwrite (k : K)
  | cut (q : Interval I)
  | removeOverlapping (q : Interval I)

/-- the interval argument contains no point -/
def SetOp.Bad : SetOp I K → Prop
  | .insertStrict k | .insertMergeTouching k | .insertMergeOverlapping k
  | .insertMergeTouchingOrOverlapping k | .insertOverwrite k => ¬ Valid k
  | .cut q | .removeOverlapping q => ¬ Valid q

/-- the effect of the call on the covered points is determined by the covered points -/
def SetOp.Pointwise : SetOp I K → Prop
  | .removeOverlapping _ => False
  | _ => True

/-- the calls that join what they insert with its neighbours, or only take away -/
def SetOp.Coalescing : SetOp I K → Prop
  | .insertMergeTouching _ | .insertMergeTouchingOrOverlapping _ | .cut _ | .removeOverlapping _ => True
  | _ => False

open Classical in
/-- Effect of a changing call on the set of covered points. -/
noncomputable def setStep (C : Set I) : SetOp I K → Set I
  | .insertStrict k | .insertMergeTouching k => if ∃ p ∈ C, Mem p k then C else {p | p ∈ C ∨ Mem p k}
  | .insertMergeOverlapping k | .insertMergeTouchingOrOverlapping k | .insertOverwrite k => {p | p ∈ C ∨ Mem p k}
  | .cut q => {p | p ∈ C ∧ ¬ Mem p q}
  | .removeOverlapping _ => C

/-! ## The reference function from points to identifier sets, for `Gqdit` -/

/-- A history of `Gqdit` calls: `new()`, changing calls on the result of a history, and `append` of the results of
two histories. -/
inductive GqHist (I K D : Type) where
  | new
  | insert (g : GqHist I K D) (ids : Finset D) (k : K)
  | cutWithIdentifiers (g : GqHist I K D) (ids : Finset D) (q : Interval I)
  | cutAllIdentifiers (g : GqHist I K D) (q : Interval I)
  | append (g other : GqHist I K D)

/-- some interval argument of the history contains no point -/
def GqHist.Bad {D : Type} : GqHist I K D → Prop
  | .new => False
  | .insert g _ k => g.Bad ∨ ¬ Valid k
  | .cutWithIdentifiers g _ q => g.Bad ∨ ¬ Valid q
  | .cutAllIdentifiers g q => g.Bad ∨ ¬ Valid q
  | .append g other => g.Bad ∨ other.Bad

open Classical in
/-- the identifiers that should be at the point after the history -/
noncomputable def GqHist.idsAt {D : Type} : GqHist I K D → I → Finset D
  | .new, _ => ∅
  | .insert g ids k, p => if Mem p k then g.idsAt p ∪ ids else g.idsAt p
  | .cutWithIdentifiers g ids q, p => if Mem p q then g.idsAt p \ ids else g.idsAt p
  | .cutAllIdentifiers g q, p => if Mem p q then ∅ else g.idsAt p
  | .append g other, p => g.idsAt p ∪ other.idsAt p

/-! ## `ZosditMap` -/

/-- The intervals share at most one point, and if they share one it is an end point of both. -/
def ZeroOverlap {A B : Type} [IntervalType I A] [IntervalType I B] (a : A) (b : B) : Prop :=
  (∀ p p', Mem p a → Mem p b → Mem p' a → Mem p' b → p = p') ∧
  (∀ p, Mem p a → Mem p b → (p = start a ∨ p = stop a) ∧ (p = start b ∨ p = stop b))

/-- every point of `a` is at or below every point of `b` -/
def AtOrBefore {A B : Type} [IntervalType I A] [IntervalType I B] (a : A) (b : B) : Prop :=
  ∀ p q, Mem p a → Mem q b → p ≤ q

/-- the intervals have the same points -/
def SameInterval {A B : Type} [IntervalType I A] [IntervalType I B] (a : A) (b : B) : Prop := ∀ p, Mem p a ↔ Mem p b

/-- `k` is the key of the first of the given elements that has the interval of `k` -/
def GivenFirst (k : K) (given : List (K × V)) : Prop :=
  ∃ l₁ e l₂, given = l₁ ++ e :: l₂ ∧ e.1 = k ∧ ∀ d ∈ l₁, ¬ SameInterval (I := I) d.1 k

/-- the entries are valid intervals, each at or before all later ones -/
def ZWF (l : List (K × V)) : Prop :=
  (∀ e ∈ l, Valid e.1) ∧ l.Pairwise (fun a b => AtOrBefore a.1 b.1)

/-- `l` is the part of an entry with value `v` described by `P`: nothing if no point satisfies `P`, else the one
interval of these points with the value -/
def Part (P : I → Prop) (v : V) (l : List (K × V)) : Prop :=
  ((∀ p, ¬ P p) ∧ l = []) ∨ ∃ i, Describes i P ∧ l = [(ofInterval i, v)]

/-- cutting `q` out of an entry leaves `left` and gives `returned` -/
def CutEntry {Q : Type} [IntervalType I Q] (q : Q) (e : K × V) (left returned : List (K × V)) : Prop :=
  Part (fun p => Mem p e.1 ∧ Mem p q) e.2 returned ∧
  (¬ Overlap e.1 q → left = [e]) ∧
  (Overlap e.1 q → ∃ below above, left = below ++ above ∧
    Part (fun p => Mem p e.1 ∧ ∀ x, Mem x q → p < x) e.2 below ∧
    Part (fun p => Mem p e.1 ∧ ∀ x, Mem x q → x < p) e.2 above)

/-- cutting `q` out of every entry of the first list, in order, leaves the second list and gives the third -/
inductive CutAll {Q : Type} [IntervalType I Q] (q : Q) : List (K × V) → List (K × V) → List (K × V) → Prop
  | nil : CutAll q [] [] []
  | cons {e l left returned left' returned'} : CutEntry q e left returned → CutAll q l left' returned' →
      CutAll q (e :: l) (left ++ left') (returned ++ returned')

/-- The changing calls of the `ZosditMap` API. `pick` is not an argument of the call: if the map holds several
separate stores for an interval identical to `k`, it says which of them the tree's search meets (see
`ZosditMap.entryPush`). Theorems hold for all picks. -/
inductive ZOp (I K V : Type) where
  | insertStrictBack (k : K) (v : V) (pick : Nat)
  | removeLastValueAtPoint (p : I)
  | cut (q : Interval I)

/-- the interval argument, if there is one, contains no point -/
def ZOp.Bad : ZOp I K V → Prop
  | .insertStrictBack k _ _ => ¬ Valid k
  | .cut q => ¬ Valid q
  | .removeLastValueAtPoint _ => False

/-- the call is a `cut` -/
def ZOp.isCut : ZOp I K V → Bool
  | .cut _ => true
  | _ => false

/-- the call is a `remove_last_value_at_point` -/
def ZOp.isRemove : ZOp I K V → Bool
  | .removeLastValueAtPoint _ => true
  | _ => false

/-- What a changing call returns. -/
inductive ZOut (K V : Type) where
  /-- `Ok(())` or `Err(NonZeroOverlapError { value })` -/
  | strict (r : Except V Unit)
  | optValue (v : Option V)
  | entries (l : List (K × V))
end
end Nodit.Spec
