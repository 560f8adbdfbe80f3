import Verif.Serde
/-!
# Serialisation of `Interval` (feature `serde`)

`#[derive(serde::Serialize, serde::Deserialize)]` on `struct Interval<I> { start: I, end: I }`, `/repo/src/interval.rs:40-47`. The
derived code is not in `/repo`; what `serde_derive` generates for a struct with two fields without attributes is transcribed: a
visitor with `visit_seq` (for formats that write structs as sequences) and `visit_map` (for formats that write field names). The
formats are abstract as in `Verif/Serde.lean`. A missing field is an error, as it is for every field type but `Option`.
-/
namespace Nodit
variable {I E : Type}

/-- what the derived `Serialize` hands to the serializer: `serialize_struct("Interval", 2)`, then the fields in this order.
Derived at `/repo/src/interval.rs:41`. -/
structure SerStruct (α : Type) where
  name : String
  len : Nat
  fields : List (String × α)
deriving DecidableEq, Repr

/-- one round of the loop of `visit_map`: the name is one of the two fields, another name, or unreadable; with the result of
reading the value. Derived at `/repo/src/interval.rs:41`. -/
inductive FieldItem (E I : Type) where
  | start (value : Except E I)
  | stop (value : Except E I)
  | other (value : Except E Unit)
  | unreadable (e : E)

/-- the errors of the derived `Deserialize`. Derived at `/repo/src/interval.rs:41`. -/
inductive StructError (E : Type) where
  | format (e : E)
  | invalidLength (n : Nat)
  | duplicateField (name : String)
  | missingField (name : String)
deriving DecidableEq, Repr

namespace Interval

/-- derived `serialize`, `/repo/src/interval.rs:40-47` -/
def serialize (i : Interval I) : SerStruct I := ⟨"Interval", 2, [("start", i.start), ("end", i.stop)]⟩

/-- derived `visit_seq`, `/repo/src/interval.rs:40-47`; what follows the second element is left to the format -/
def visitSeq : List (Except E I) → Except (StructError E) (Interval I)
  | [] => .error (.invalidLength 0)
  | .error e :: _ => .error (.format e)
  | [.ok _] => .error (.invalidLength 1)
  | .ok _ :: .error e :: _ => .error (.format e)
  | .ok a :: .ok b :: _ => .ok ⟨a, b⟩

/-- the loop of the derived `visit_map`, `/repo/src/interval.rs:40-47` -/
def visitMapFrom (start stop : Option I) : List (FieldItem E I) → Except (StructError E) (Interval I)
  | [] =>
    match start, stop with
    | none, _ => .error (.missingField "start")
    | some _, none => .error (.missingField "end")
    | some a, some b => .ok ⟨a, b⟩
  | .unreadable e :: _ => .error (.format e)
  | .start v :: rest =>
    if start.isSome then .error (.duplicateField "start")
    else
      match v with
      | .error e => .error (.format e)
      | .ok a => visitMapFrom (some a) stop rest
  | .stop v :: rest =>
    if stop.isSome then .error (.duplicateField "end")
    else
      match v with
      | .error e => .error (.format e)
      | .ok b => visitMapFrom start (some b) rest
  | .other v :: rest =>
    match v with
    | .error e => .error (.format e)
    | .ok () => visitMapFrom start stop rest

/-- derived `visit_map`, `/repo/src/interval.rs:40-47` -/
def visitMap (items : List (FieldItem E I)) : Except (StructError E) (Interval I) := visitMapFrom none none items
end Interval
end Nodit
