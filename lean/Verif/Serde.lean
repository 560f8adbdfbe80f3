import Verif.NoditSet
import Verif.Gqdit
import Verif.Zosdit
/-!
# Serialisation (feature `serde`)

Model of the four `mod serde` of the crate. The data format is abstract: serialising makes the calls
`serialize_seq(Some(len))`, `serialize_element(x)` for each element, `end()`, recorded as `SerSeq` (a serializer
that fails on one of them is not modelled: its error is passed on by `?`); deserialising reads a `SeqAccess`, which is
given by the results of its successive `next_element()` calls: an element, or an error of the format (`Err` also for
elements which do not have the right type); after the last one `next_element()` gives `Ok(None)`. That the format
gives back what was written into it is an assumption on the format, not modelled: the round trip theorems start from
the recorded elements.
-/
namespace Nodit

/-- what is handed to the serializer: the announced length and the elements.
Used e.g. at `/repo/src/nodit/map.rs:1446-1461`. -/
structure SerSeq (α : Type) where
  hint : Option Nat
  elems : List α
deriving DecidableEq, Repr

/-- the errors of deserialisation: of the format, or `serde::de::Error::custom(message)`.
Used e.g. at `/repo/src/nodit/map.rs:1505-1511`. -/
inductive DeError (E : Type) where
  | format (e : E)
  | custom (message : String)
deriving DecidableEq, Repr

namespace NoditMap
variable {I K V E : Type} [PointType I] [IntervalType I K]

/-- `serialize`, `/repo/src/nodit/map.rs:1446-1461` -/
def serialize (m : NoditMap K V) : SerSeq (K × V) := ⟨some m.len, m.iter⟩

/-- the loop of `visit_seq`, `/repo/src/nodit/map.rs:1507-1511` -/
def visitSeqFrom (m : NoditMap K V) : List (Except E (K × V)) → Res (Except (DeError E) (NoditMap K V))
  | [] => pure (.ok m)
  | .error e :: _ => pure (.error (.format e))
  | .ok (interval, value) :: rest => do
    match ← m.insertStrict interval value with
    | (_, .error _) => pure (.error (.custom "intervals overlap"))
    | (m, .ok ()) => visitSeqFrom m rest

/-- `deserialize` and `visit_seq`, `/repo/src/nodit/map.rs:1463-1513` -/
def deserialize (input : List (Except E (K × V))) : Res (Except (DeError E) (NoditMap K V)) := visitSeqFrom new input
end NoditMap

namespace NoditSet
variable {I K E : Type} [PointType I] [IntervalType I K]

/-- `serialize`, `/repo/src/nodit/set.rs:235-249` -/
def serialize (s : NoditSet K) : SerSeq K := ⟨some s.len, s.iter⟩

/-- the loop of `visit_seq`, `/repo/src/nodit/set.rs:291-296` -/
def visitSeqFrom (s : NoditSet K) : List (Except E K) → Res (Except (DeError E) (NoditSet K))
  | [] => pure (.ok s)
  | .error e :: _ => pure (.error (.format e))
  | .ok interval :: rest => do
    match ← s.insertStrict interval with
    | (_, .error _) => pure (.error (.custom "intervals overlap"))
    | (s, .ok ()) => visitSeqFrom s rest

/-- `deserialize` and `visit_seq`, `/repo/src/nodit/set.rs:251-298` -/
def deserialize (input : List (Except E K)) : Res (Except (DeError E) (NoditSet K)) := visitSeqFrom new input
end NoditSet

namespace ZosditMap
variable {I K V E : Type} [PointType I] [IntervalType I K]

/-- `serialize`, `/repo/src/zosdit/map.rs:650-666` -/
def serialize (m : ZosditMap K V) : SerSeq (K × V) := ⟨some m.length, m.iter⟩

/-- the loop of `visit_seq`, `/repo/src/zosdit/map.rs:712-717` (`picks i` for the `i`-th insert, see `entryPush`) -/
def visitSeqFrom (m : ZosditMap K V) (picks : Nat → Nat) :
    List (Except E (K × V)) → Res (Except (DeError E) (ZosditMap K V))
  | [] => pure (.ok m)
  | .error e :: _ => pure (.error (.format e))
  | .ok (interval, value) :: rest => do
    match ← m.insertStrictBack interval value (picks 0) with
    | (_, .error _) => pure (.error (.custom "intervals non-zero-overlap"))
    | (m, .ok ()) => visitSeqFrom m (fun i => picks (i + 1)) rest

/-- `deserialize` and `visit_seq`, `/repo/src/zosdit/map.rs:668-719` -/
def deserialize (input : List (Except E (K × V))) (picks : Nat → Nat) : Res (Except (DeError E) (ZosditMap K V)) :=
  visitSeqFrom new picks input
end ZosditMap

namespace Gqdit
variable {I K D E : Type} [PointType I] [IntervalType I K] [DecidableEq D]

/-- `serialize`, `/repo/src/gqdit/mod.rs:569-582`: that of the inner map -/
def serialize (g : Gqdit K D) : SerSeq (K × Finset D) := g.inner.serialize

/-- `deserialize`, `/repo/src/gqdit/mod.rs:584-597`: that of a `NoditMap` -/
def deserialize (input : List (Except E (K × Finset D))) : Res (Except (DeError E) (Gqdit K D)) := do
  match ← NoditMap.deserialize input with
  | .ok m => pure (.ok ⟨m⟩)
  | .error e => pure (.error e)
end Gqdit
end Nodit
