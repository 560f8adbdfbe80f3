import Verif.Props.SerdeIntervalProps
/-!
# C90: which error the deserialization of an `Interval` gives
-/
set_option linter.unusedSectionVars false
namespace Nodit
open Spec
variable {I E : Type}

/-- the name and the value could be read -/
def Spec.Readable : FieldItem E I → Prop
  | .start v => ∃ a, v = .ok a
  | .stop v => ∃ a, v = .ok a
  | .other v => v = .ok ()
  | .unreadable _ => False

/-- what is wrong with the first item that is wrong: a name that cannot be read, a field given again (its value is not looked at), or a value that cannot be
read -/
inductive Spec.Wrong (before : List (FieldItem E I)) : FieldItem E I → StructError E → Prop
  | name (e : E) : Wrong before (.unreadable e) (.format e)
  | startAgain (v : Except E I) : startsOf before ≠ [] → Wrong before (.start v) (.duplicateField "start")
  | endAgain (v : Except E I) : stopsOf before ≠ [] → Wrong before (.stop v) (.duplicateField "end")
  | start (e : E) : startsOf before = [] → Wrong before (.start (.error e)) (.format e)
  | stop (e : E) : stopsOf before = [] → Wrong before (.stop (.error e)) (.format e)
  | other (e : E) : Wrong before (.other (.error e)) (.format e)

/-- everything could be read, and no field is given twice -/
def Spec.Good (items : List (FieldItem E I)) : Prop :=
  (∀ it ∈ items, Readable it) ∧ (startsOf items).length ≤ 1 ∧ (stopsOf items).length ≤ 1

theorem Spec.startsOf_append (l l' : List (FieldItem E I)) : startsOf (l ++ l') = startsOf l ++ startsOf l' := by simp [startsOf]
theorem Spec.stopsOf_append (l l' : List (FieldItem E I)) : stopsOf (l ++ l') = stopsOf l ++ stopsOf l' := by simp [stopsOf]

/-- what the loop has seen when it is at the end of good items -/
theorem visitMapFrom_good (pre rest : List (FieldItem E I)) (h : Good pre) :
    ∃ a b, Interval.visitMapFrom none none (pre ++ rest) = Interval.visitMapFrom a b rest ∧
      a.toList.map Except.ok = startsOf pre ∧ b.toList.map Except.ok = stopsOf pre := by
  induction pre using List.reverseRecOn generalizing rest with
  | nil => exact ⟨none, none, rfl, rfl, rfl⟩
  | append_singleton pre it ih =>
    obtain ⟨h1, h2, h3⟩ := h
    rw [startsOf_append, List.length_append] at h2
    rw [stopsOf_append, List.length_append] at h3
    obtain ⟨a, b, e1, e2, e3⟩ := ih (it :: rest) ⟨fun x hx => h1 x (by simp [hx]), by omega, by omega⟩
    have hit := h1 it (by simp)
    rw [List.append_assoc, List.singleton_append, e1, startsOf_append, stopsOf_append, ← e2, ← e3]
    rw [← e2] at h2
    rw [← e3] at h3
    cases it with
    | unreadable e => exact hit.elim
    | other v =>
      have hv : v = .ok () := hit
      subst hv
      exact ⟨a, b, by simp [Interval.visitMapFrom], by simp [startsOf], by simp [stopsOf]⟩
    | start v =>
      obtain ⟨x, rfl⟩ := hit
      cases a with
      | some a => simp [startsOf] at h2
      | none => exact ⟨some x, b, by simp [Interval.visitMapFrom], by simp [startsOf], by simp [stopsOf]⟩
    | stop v =>
      obtain ⟨x, rfl⟩ := hit
      cases b with
      | some b => simp [stopsOf] at h3
      | none => exact ⟨a, some x, by simp [Interval.visitMapFrom], by simp [startsOf], by simp [stopsOf]⟩

theorem good_or_wrong (items : List (FieldItem E I)) :
    Good items ∨ ∃ pre it post x, items = pre ++ it :: post ∧ Good pre ∧ Wrong pre it x := by
  induction items using List.reverseRecOn with
  | nil => exact Or.inl ⟨by simp, by simp [startsOf], by simp [stopsOf]⟩
  | append_singleton pre it ih =>
    rcases ih with ih | ⟨p, i, q, x, rfl, h1, h2⟩
    · by_cases hx : ∃ x, Wrong pre it x
      · obtain ⟨x, hx⟩ := hx
        exact Or.inr ⟨pre, it, [], x, rfl, ih, hx⟩
      · refine Or.inl ⟨?_, ?_, ?_⟩
        · intro y hy
          rcases List.mem_append.1 hy with hy | hy
          · exact ih.1 y hy
          · rw [List.mem_singleton] at hy; subst hy
            cases y with
            | unreadable e => exact absurd ⟨_, .name e⟩ hx
            | other v => cases v with
              | error e => exact absurd ⟨_, .other e⟩ hx
              | ok u => rfl
            | start v => cases v with
              | error e =>
                by_cases hs : startsOf pre = []
                · exact absurd ⟨_, .start e hs⟩ hx
                · exact absurd ⟨_, .startAgain _ hs⟩ hx
              | ok u => exact ⟨u, rfl⟩
            | stop v => cases v with
              | error e =>
                by_cases hs : stopsOf pre = []
                · exact absurd ⟨_, .stop e hs⟩ hx
                · exact absurd ⟨_, .endAgain _ hs⟩ hx
              | ok u => exact ⟨u, rfl⟩
        · rw [startsOf_append]
          cases it with
          | start v =>
            have : startsOf pre = [] := by by_contra hs; exact hx ⟨_, .startAgain v hs⟩
            rw [this]; simp [startsOf]
          | _ => simpa [startsOf] using ih.2.1
        · rw [stopsOf_append]
          cases it with
          | stop v =>
            have : stopsOf pre = [] := by by_contra hs; exact hx ⟨_, .endAgain v hs⟩
            rw [this]; simp [stopsOf]
          | _ => simpa [stopsOf] using ih.2.2
    · exact Or.inr ⟨p, i, q ++ [it], x, by simp, h1, h2⟩

theorem visitMap_wrong {pre post : List (FieldItem E I)} {it : FieldItem E I} {x : StructError E} (h : Good pre) (hw : Wrong pre it x) :
    Interval.visitMap (pre ++ it :: post) = .error x := by
  obtain ⟨a, b, e1, e2, e3⟩ := visitMapFrom_good pre (it :: post) h
  rw [Interval.visitMap, e1]
  cases hw with
  | name e => rfl
  | other e => rfl
  | startAgain v hs => cases a with
    | none => exact absurd e2.symm hs
    | some a => simp [Interval.visitMapFrom]
  | endAgain v hs => cases b with
    | none => exact absurd e3.symm hs
    | some b => simp [Interval.visitMapFrom]
  | start e hs => cases a with
    | none => simp [Interval.visitMapFrom]
    | some a => rw [hs] at e2; simp at e2
  | stop e hs => cases b with
    | none => simp [Interval.visitMapFrom]
    | some b => rw [hs] at e3; simp at e3

/-- **C90**, formats with field names, the errors: it is that of the first item that is wrong; if none is, the missing field is reported, `start` first. -/
theorem C90_map_errors_exact (items : List (FieldItem E I)) (x : StructError E) :
    Interval.visitMap items = .error x ↔
      (∃ pre it post, items = pre ++ it :: post ∧ Good pre ∧ Wrong pre it x) ∨
      (Good items ∧ startsOf items = [] ∧ x = .missingField "start") ∨
      (Good items ∧ startsOf items ≠ [] ∧ stopsOf items = [] ∧ x = .missingField "end") := by
  constructor
  · intro h
    rcases good_or_wrong items with hg | ⟨pre, it, post, y, rfl, h1, h2⟩
    · refine Or.inr ?_
      obtain ⟨a, b, e1, e2, e3⟩ := visitMapFrom_good items [] hg
      rw [List.append_nil] at e1
      rw [Interval.visitMap, e1] at h
      cases a with
      | none => cases h; exact Or.inl ⟨hg, e2.symm, rfl⟩
      | some a =>
        cases b with
        | none => cases h; exact Or.inr ⟨hg, by rw [← e2]; simp, e3.symm, rfl⟩
        | some b => cases h
    · rw [visitMap_wrong h1 h2] at h
      cases h
      exact Or.inl ⟨pre, it, post, rfl, h1, h2⟩
  · rintro (⟨pre, it, post, rfl, h1, h2⟩ | ⟨hg, hs, rfl⟩ | ⟨hg, hs, ht, rfl⟩)
    · exact visitMap_wrong h1 h2
    · obtain ⟨a, b, e1, e2, e3⟩ := visitMapFrom_good items [] hg
      rw [List.append_nil] at e1
      rw [Interval.visitMap, e1]
      cases a with
      | none => rfl
      | some a => rw [hs] at e2; simp at e2
    · obtain ⟨a, b, e1, e2, e3⟩ := visitMapFrom_good items [] hg
      rw [List.append_nil] at e1
      rw [Interval.visitMap, e1]
      cases a with
      | none => exact absurd e2.symm hs
      | some a =>
        cases b with
        | none => rfl
        | some b => rw [ht] at e3; simp at e3

/-- **C90**, formats without field names, the errors: that of the first of the first two elements which cannot be read; else how many there are, if they
are less than two. -/
theorem C90_seq_errors_exact (input : List (Except E I)) (x : StructError E) :
    Interval.visitSeq input = .error x ↔
      (input.length < 2 ∧ (∀ v ∈ input, ∃ a, v = .ok a) ∧ x = .invalidLength input.length) ∨
      ∃ e, x = .format e ∧ ((∃ rest, input = .error e :: rest) ∨ ∃ a rest, input = .ok a :: .error e :: rest) := by
  rcases input with _ | ⟨_ | a, _ | ⟨_ | b, rest⟩⟩ <;> simp [Interval.visitSeq] <;> exact eq_comm

example : Interval.visitMap ([.start (.ok (Demo.u8 7)), .other (.ok ()), .start (.error ()), .stop (.error ())] : List (FieldItem Unit Demo.U8)) =
    .error (.duplicateField "start") := by
  rw [C90_map_errors_exact]
  exact Or.inl ⟨[.start (.ok (Demo.u8 7)), .other (.ok ())], .start (.error ()), [.stop (.error ())], rfl,
    ⟨by simp [Readable], by simp [startsOf], by simp [stopsOf]⟩, .startAgain _ (by simp [startsOf])⟩
example : Interval.visitMap ([.start (.ok (Demo.u8 7))] : List (FieldItem Unit Demo.U8)) = .error (.missingField "end") := by
  rw [C90_map_errors_exact]
  exact Or.inr (Or.inr ⟨⟨by simp [Readable], by simp [startsOf], by simp [stopsOf]⟩, by simp [startsOf], by simp [stopsOf], rfl⟩)
end Nodit
