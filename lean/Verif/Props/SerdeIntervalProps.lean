import Verif.SerdeInterval
import Verif.Props.MapProps
/-!
# C90: serialised intervals come back, and nothing checks them
-/
set_option linter.unusedSectionVars false
namespace Nodit
open Spec PointType InclusiveInterval
variable {I K V E : Type}

/-- the values given for `start` -/
def Spec.startsOf (items : List (FieldItem E I)) : List (Except E I) :=
  items.filterMap fun | .start v => some v | _ => none
/-- the values given for `end` -/
def Spec.stopsOf (items : List (FieldItem E I)) : List (Except E I) :=
  items.filterMap fun | .stop v => some v | _ => none
/-- every name could be read, and every value of a name that is not a field -/
def Spec.OthersReadable (items : List (FieldItem E I)) : Prop :=
  ∀ it ∈ items, (∀ e, it ≠ .unreadable e) ∧ ∀ e, it ≠ .other (.error e)

theorem visitMapFrom_ok (a b : Option I) (items : List (FieldItem E I)) (i : Interval I) :
    Interval.visitMapFrom a b items = .ok i ↔
      (a.toList.map Except.ok ++ startsOf items = [.ok i.start]) ∧ (b.toList.map Except.ok ++ stopsOf items = [.ok i.stop]) ∧
      OthersReadable items := by
  induction items generalizing a b with
  | nil =>
    obtain ⟨s, t⟩ := i
    cases a <;> cases b <;> simp [Interval.visitMapFrom, startsOf, stopsOf, OthersReadable]
  | cons it items ih =>
    have ho : OthersReadable (it :: items) ↔ ((∀ e, it ≠ .unreadable e) ∧ ∀ e, it ≠ .other (.error e)) ∧ OthersReadable items := by
      simp only [OthersReadable, List.forall_mem_cons]
    rw [ho]
    cases it with
    | unreadable e => simp [Interval.visitMapFrom]
    | start v =>
      cases a with
      | some a => cases v <;> simp [Interval.visitMapFrom, startsOf]
      | none =>
        cases v with
        | error e => simp [Interval.visitMapFrom, startsOf]
        | ok v => simp [Interval.visitMapFrom, ih, startsOf, stopsOf]
    | stop v =>
      cases b with
      | some b => cases v <;> simp [Interval.visitMapFrom, stopsOf]
      | none =>
        cases v with
        | error e => simp [Interval.visitMapFrom, stopsOf]
        | ok v => simp [Interval.visitMapFrom, ih, startsOf, stopsOf]
    | other v =>
      cases v with
      | error e => simp [Interval.visitMapFrom]
      | ok v => simp [Interval.visitMapFrom, ih, startsOf, stopsOf]

/-- **C90**, formats with field names: an `Interval` is accepted iff `start` and `end` are each given exactly once and everything could
be read; it has these ends, whatever they are. The order, and other fields, do not matter. -/
theorem C90_map_exact (items : List (FieldItem E I)) (i : Interval I) :
    Interval.visitMap items = .ok i ↔ startsOf items = [.ok i.start] ∧ stopsOf items = [.ok i.stop] ∧ OthersReadable items := by
  rw [Interval.visitMap, visitMapFrom_ok]; rfl

/-- **C90**, formats without field names: accepted iff the first two elements can be read; they are the ends. -/
theorem C90_seq_exact (input : List (Except E I)) (i : Interval I) :
    Interval.visitSeq input = .ok i ↔ ∃ rest, input = .ok i.start :: .ok i.stop :: rest := by
  obtain ⟨s, t⟩ := i
  rcases input with _ | ⟨_ | a, _ | ⟨_ | b, rest⟩⟩ <;> simp [Interval.visitSeq]

/-- how a format that keeps field names gives the fields back -/
def Spec.asItems (l : List (String × I)) : List (FieldItem E I) :=
  l.map fun f => if f.1 = "start" then .start (.ok f.2) else if f.1 = "end" then .stop (.ok f.2) else .other (.ok ())

/-- **C90**: what was serialised is deserialised to the same interval, by formats with and without field names, and with the fields in
any order. -/
theorem C90_round_trip (i : Interval I) (l : List (String × I)) (h : l.Perm i.serialize.fields) :
    Interval.visitMap (asItems l : List (FieldItem E I)) = .ok i ∧
    Interval.visitSeq (i.serialize.fields.map fun f => (.ok f.2 : Except E I)) = .ok i := by
  refine ⟨?_, rfl⟩
  rw [Interval.serialize] at h
  have key : l = [("start", i.start), ("end", i.stop)] ∨ l = [("end", i.stop), ("start", i.start)] := by
    rcases l with _ | ⟨x, l⟩
    · simpa using h.length_eq
    · have hx : x ∈ [("start", i.start), ("end", i.stop)] := h.subset List.mem_cons_self
      simp only [List.mem_cons, List.not_mem_nil, or_false] at hx
      rcases hx with rfl | rfl
      · exact Or.inl (by rw [List.perm_singleton.1 ((List.perm_cons _).1 h)])
      · exact Or.inr (by rw [List.perm_singleton.1 ((List.perm_cons _).1 (h.trans (List.Perm.swap _ _ _)))])
  rcases key with rfl | rfl <;> simp [asItems, Interval.visitMap, Interval.visitMapFrom]

/-- **C90**: the serialized form: a struct declared with as many fields as it gives, named `start` and `end` in this order, with the
two ends as their values. -/
theorem C90_serialized_form (i : Interval I) :
    i.serialize.name = "Interval" ∧ i.serialize.len = i.serialize.fields.length ∧
      i.serialize.fields.map Prod.fst = ["start", "end"] ∧ i.serialize.fields.map Prod.snd = [i.start, i.stop] :=
  ⟨rfl, rfl, rfl, rfl⟩

/-- **C90**: the ends are not checked: every pair of points is accepted, also when the end is before the start. Such an interval
contains no point, and every call that takes it panics. -/
theorem C90_not_validated [PointType I] [LawfulPoint I] {a b : I} (h : b < a) :
    ∃ i : Interval I, Interval.visitMap ([.start (.ok a), .stop (.ok b)] : List (FieldItem E I)) = .ok i ∧ ¬ Valid i ∧
      ∀ (m : NoditMap (Interval I) V) (v : V), m.insertStrict i v = .error .invalidInterval ∧ m.cut i = .error .invalidInterval ∧
        m.overlaps i = .error .invalidInterval := by
  have hv : ¬ start (⟨a, b⟩ : Interval I) ≤ stop (⟨a, b⟩ : Interval I) := not_le.2 h
  refine ⟨⟨a, b⟩, rfl, fun ⟨p, hp⟩ => hv (le_trans hp.1 hp.2), fun m v => ⟨?_, ?_, ?_⟩⟩
  · simp only [NoditMap.insertStrict, invalidIntervalPanic_err hv, bind, Except.bind]
  · simp only [NoditMap.cut, invalidIntervalPanic_err hv, bind, Except.bind]
  · simp only [NoditMap.overlaps, invalidIntervalPanic_err hv, bind, Except.bind]

/-- the hypotheses: fields in the other order, with an extra one -/
example : Interval.visitMap ([.stop (.ok (Demo.u8 7)), .other (.ok ()), .start (.ok (Demo.u8 3))] : List (FieldItem Unit Demo.U8)) =
    .ok (Demo.iv 3 7) := by
  rw [C90_map_exact]; exact ⟨rfl, rfl, by simp [OthersReadable]⟩
example : Interval.visitMap ([.stop (.ok (Demo.u8 7)), .start (.ok (Demo.u8 3)), .start (.ok (Demo.u8 3))] : List (FieldItem Unit Demo.U8)) =
    .error (.duplicateField "start") := rfl
example : [("end", Demo.u8 7), ("start", Demo.u8 3)].Perm (Demo.iv 3 7).serialize.fields := List.Perm.swap _ _ _
example : Demo.u8 2 < Demo.u8 5 := by decide
end Nodit
