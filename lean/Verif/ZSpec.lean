import Verif.Spec
/-!
# The reference machine for `ZosditMap`

It describes exactly what the code does, including where it departs from its documentation (see C39, C40, C42, C43):
the state is the sequence of entries, the number of entries taken out by `remove_last_value_at_point` (which `len()`
goes on counting), and whether a `cut` has taken place (then several stores can exist for one point interval, and the
position of a new value among the entries with an identical point interval is not determined by the sequence).
-/
namespace Nodit.Spec
variable {I K V : Type} [PointType I] [IntervalType I K]

/-- the state of the reference machine -/
structure ZState (K V : Type) where
  entries : List (K × V)
  removed : Nat
  wasCut : Bool

/-- `get_last_value_at_point(p)` and `remove_last_value_at_point(p)` find nothing: no entry contains the point, or every
entry that does ends there, while some entry has points above. -/
def NotFound (l : List (K × V)) (p : I) : Prop :=
  (∀ e ∈ l, ¬ Mem p e.1) ∨
  ((∃ e ∈ l, ∃ x, Mem x e.1 ∧ p < x) ∧ ∀ e ∈ l, Mem p e.1 → ∀ x, Mem x e.1 → x ≤ p)

/-- `cut(q)` does nothing: some entry has points before `q`, but no such entry reaches `q`. -/
def CutMisses {Q : Type} [IntervalType I Q] (l : List (K × V)) (q : Q) : Prop :=
  (∃ e ∈ l, ∃ p, Mem p e.1 ∧ ∀ x, Mem x q → p < x) ∧
  ∀ e ∈ l, (∃ p, Mem p e.1 ∧ ∀ x, Mem x q → p < x) → ¬ Overlap e.1 q

/-- the value `v` and an interval with the points of `k` are added to `l`, in order, giving `l'`: after the entries with
an identical interval if `back`; the interval is `k` or that of an entry with an identical interval. -/
def AddedAt (l : List (K × V)) (k : K) (v : V) (back : Prop) (l' : List (K × V)) : Prop :=
  ∃ l1 k' l2, l = l1 ++ l2 ∧ l' = l1 ++ (k', v) :: l2 ∧ SameInterval k' k ∧ (k' = k ∨ ∃ e ∈ l, e.1 = k') ∧
    ((∀ e ∈ l, ¬ SameInterval e.1 k) → k' = k) ∧
    (∀ e ∈ l1, AtOrBefore e.1 k) ∧ (∀ e ∈ l2, AtOrBefore k e.1) ∧ (back → ∀ e ∈ l2, ¬ SameInterval e.1 k)

/-- Effect and result of a call with valid arguments. -/
def ZSpecOp (s : ZState K V) : ZOp I K V → ZState K V → ZOut K V → Prop
  | .insertStrictBack k v _, s', o =>
    ((∃ e ∈ s.entries, ¬ ZeroOverlap e.1 k) → s' = s ∧ o = .strict (.error v)) ∧
    ((∀ e ∈ s.entries, ZeroOverlap e.1 k) → o = .strict (.ok ()) ∧ ∃ l',
      AddedAt s.entries k v (s.wasCut = false ∨ ∃ p p', Mem p k ∧ Mem p' k ∧ p < p') l' ∧ s' = { s with entries := l' })
  | .removeLastValueAtPoint p, s', o =>
    (NotFound s.entries p → s' = s ∧ o = .optValue none) ∧
    (¬ NotFound s.entries p → ∃ l1 k v l2, s.entries = l1 ++ (k, v) :: l2 ∧ Mem p k ∧ (∀ e ∈ l2, ¬ Mem p e.1) ∧
      s' = { s with entries := l1 ++ l2, removed := s.removed + 1 } ∧ o = .optValue (some v))
  | .cut q, s', o =>
    (CutMisses s.entries q → s' = s ∧ o = .entries []) ∧
    (¬ CutMisses s.entries q → ∃ left returned, CutAll q s.entries left returned ∧
      s' = { s with entries := left, wasCut := true } ∧ o = .entries returned)

/-- One step: a call with an interval argument that contains no point panics and changes nothing. -/
def ZSpecStep (s : ZState K V) (op : ZOp I K V) (s' : ZState K V) (o : Res (ZOut K V)) : Prop :=
  (op.Bad ∧ s' = s ∧ o = .error .invalidInterval) ∨ (¬ op.Bad ∧ ∃ out, o = .ok out ∧ ZSpecOp s op s' out)

/-- A history of the reference machine. -/
inductive ZSpecRun : ZState K V → List (ZOp I K V) → ZState K V → List (Res (ZOut K V)) → Prop
  | nil (s) : ZSpecRun s [] s []
  | cons {s s' s'' op ops o os} : ZSpecStep s op s' o → ZSpecRun s' ops s'' os → ZSpecRun s (op :: ops) s'' (o :: os)

end Nodit.Spec
