import Verif.Iter
/-!
# Specification vocabulary for iterators

What a caller sees of an iterator: the results of a sequence of calls.
-/
namespace Nodit.It
variable {σ α : Type}

/-- calling a method again and again: `Pulls it s rs s'` says that the successive calls return `rs` -/
inductive Pulls (it : Method σ α) : σ → List (Res (Option α)) → σ → Prop
  | nil {s} : Pulls it s [] s
  | cons {s r s' rs s''} : it s r s' → Pulls it s' rs s'' → Pulls it s (r :: rs) s''

/-- The iterator in state `s` yields exactly `l`: however often `next()` is called, the calls return, without panicking, the
elements of `l` in order, and `None` from then on. -/
def Yields (it : Method σ α) (s : σ) (l : List α) : Prop :=
  ∀ n, (∃ rs s', rs.length = n ∧ Pulls it s rs s') ∧
    ∀ rs s', rs.length = n → Pulls it s rs s' → rs = (List.range n).map (fun i => .ok l[i]?)

/-- the end a call takes from: `next()` or `next_back()` -/
inductive End
  | front
  | back
deriving DecidableEq

/-- the method belonging to an end -/
def DoubleEnded.method (it : DoubleEnded σ α) : End → Method σ α
  | .front => it.next
  | .back => it.nextBack

/-- a sequence of calls of `next()` and `next_back()` with their results -/
inductive Calls (it : DoubleEnded σ α) : σ → List (End × Res (Option α)) → σ → Prop
  | nil {s} : Calls it s [] s
  | cons {s e r s' tr s''} : it.method e s r s' → Calls it s' tr s'' → Calls it s ((e, r) :: tr) s''

/-- the reference: taking elements from the two ends of a list -/
def takeEnds : List α → List End → List (Option α)
  | _, [] => []
  | l, .front :: es => l.head? :: takeEnds l.tail es
  | l, .back :: es => l.getLast? :: takeEnds l.dropLast es

/-- The double-ended iterator in state `s` yields exactly `l`: every sequence of `next()` and `next_back()` calls returns,
without panicking, what taking elements from the two ends of `l` returns. -/
def YieldsBothEnds (it : DoubleEnded σ α) (s : σ) (l : List α) : Prop :=
  ∀ es, (∃ tr s', tr.map Prod.fst = es ∧ Calls it s tr s') ∧
    ∀ tr s', tr.map Prod.fst = es → Calls it s tr s' → tr.map Prod.snd = (takeEnds l es).map .ok

/-- the elements returned by the calls on one end -/
def returned (e : End) : List (End × Res (Option α)) → List α
  | [] => []
  | (e', .ok (some a)) :: tr => if e' = e then a :: returned e tr else returned e tr
  | (_, _) :: tr => returned e tr

/-- a sequence of calls on an iterator of mutable references; each comes with what the caller does to the value it gets -/
inductive CallsMut {K V : Type} (it : (K → V → V) → DoubleEnded σ (K × V)) :
    σ → List ((End × (K → V → V)) × Res (Option (K × V))) → σ → Prop
  | nil {s} : CallsMut it s [] s
  | cons {s e f r s' tr s''} : (it f).method e s r s' → CallsMut it s' tr s'' → CallsMut it s (((e, f), r) :: tr) s''

/-- the reference: updating elements from the two ends of a list, each element at most once -/
def updateEnds {K V : Type} : List (K × V) → List (End × (K → V → V)) → List (K × V)
  | l, [] => l
  | [], _ => []
  | x :: l, (.front, f) :: es => (x.1, f x.1 x.2) :: updateEnds l es
  | x :: l, (.back, f) :: es =>
    updateEnds ((x :: l).dropLast) es ++ [(((x :: l).getLast (by simp)).1,
      f ((x :: l).getLast (by simp)).1 ((x :: l).getLast (by simp)).2)]

end Nodit.It
