import Verif.Props.Algebra
import Verif.Props.Pointwise
import Verif.Props.SetHistory
import Verif.Props.GqditLaws
import Verif.Props.ZosditDrain
import Verif.Props.Demo
/-!
# C113: repeating a call

What happens if a caller makes the same call again, for instance because it does not know whether the first one was made.
-/
set_option linter.unusedSectionVars false
namespace Nodit
open Spec PointType

namespace Spec
variable {I K V : Type} [PointType I] [IntervalType I K]

/-- What the second of two identical `NoditMap` calls returns if the first returned `o`: an insert that refuses overlaps hands its value
back, an overlapping merge reports the same interval, an overwrite hands back what the first one inserted, removing calls return nothing,
queries answer the same; a value changed through `get_at_point_mut` is seen as changed.
A specification, models no lines of `/repo`. -/
def Op.again (op : Op I K V) (o : Out K V) : Out K V :=
  match op, o with
  | .insertStrict _ v, _ => .strict (.error v)
  | .insertMergeTouching _ v, _ | .insertMergeTouchingIfValuesEqual _ v, _ => .merge (.error v)
  | .insertOverwrite k v, _ => .entries [(k, v)]
  | .cut _, _ | .removeOverlapping _, _ => .entries []
  | .getAtPointMut _ f, .optValue r => .optValue (r.map f)
  | _, o => o

/-- what a caller does to the values it is handed can be done twice (all calls without `&mut` access).
A specification, models no lines of `/repo`. -/
def Op.Idempotent : Op I K V → Prop
  | .overlappingMut _ f | .iterMut f => ∀ k v, f k (f k v) = f k v
  | .getAtPointMut _ f => ∀ v, f (f v) = f v
  | _ => True

/-- The same for `NoditSet`. A specification, models no lines of `/repo`. -/
def SetCall.again (op : SetCall I K) (o : SetOut K) : SetOut K :=
  match op with
  | .insertStrict _ => .strict (.error ())
  | .insertMergeTouching _ => .merge (.error ())
  | .insertOverwrite k => .keys [k]
  | .cut _ | .removeOverlapping _ => .keys []
  | _ => o
end Spec

section
variable {I K V : Type} [PointType I] [IntervalType I K] [LawfulPoint I] [LawfulInterval I K]

omit [LawfulPoint I] in
theorem cutRemaining_not_overlap {A : Type} [IntervalType I A] {S : Set (K × V)} {q : A} {e : K × V} (he : e ∈ CutRemaining S q) :
    ¬ Overlap e.1 q := by
  rcases he with ⟨-, h⟩ | ⟨f, -, -, i, rfl, h | h⟩
  · exact h
  · rintro ⟨p, hp, hq⟩
    have hp' : Mem p i := by
      have := hp; simp only [Mem, start_of, stop_of] at this; exact this
    exact lt_irrefl _ (((h.2 p).1 hp').2 p hq)
  · rintro ⟨p, hp, hq⟩
    have hp' : Mem p i := by
      have := hp; simp only [Mem, start_of, stop_of] at this; exact this
    exact lt_irrefl _ (((h.2 p).1 hp').2 p hq)

omit [LawfulPoint I] [LawfulInterval I K] in
theorem cutRemaining_eq_self {A : Type} [IntervalType I A] {S : Set (K × V)} {q : A} (h : ∀ e ∈ S, ¬ Overlap e.1 q) :
    CutRemaining S q = S ∧ CutReturned S q = ∅ := by
  constructor
  · ext e
    constructor
    · rintro (⟨h1, -⟩ | ⟨f, hf, ho, -⟩)
      · exact h1
      · exact absurd ho (h f hf)
    · exact fun he => Or.inl ⟨he, h e he⟩
  · ext e
    simp only [Set.mem_empty_iff_false, iff_false]
    rintro ⟨f, hf, i, rfl, ⟨p, hp⟩, hi⟩
    exact h f hf ⟨p, (hi p).1 hp⟩

theorem specOp_again [BEq V] (hcan : ∀ k : K, ofInterval ⟨start k, stop k⟩ = k) {S S' : Set (K × V)} {op : Op I K V} {o : Out K V}
    (hb : ¬ op.Bad) (hi : op.Idempotent) (h : SpecOp S op S' o) : SpecOp S' op S' (op.again o) := by
  cases op with
  | insertStrict k v =>
    have hk : Valid k := not_not.1 hb
    have hex : ∃ e ∈ S', Overlap e.1 k := by
      by_cases hc : ∃ e ∈ S, Overlap e.1 k
      · rw [(h.1 hc).1]; exact hc
      · rw [(h.2 hc).1]; obtain ⟨p, hp⟩ := hk; exact ⟨(k, v), Or.inr rfl, p, hp, hp⟩
    exact ⟨fun _ => ⟨rfl, rfl⟩, fun hn => absurd hex hn⟩
  | insertMergeTouching k v =>
    have hk : Valid k := not_not.1 hb
    have hex : ∃ e ∈ S', Overlap e.1 k := by
      by_cases hc : ∃ e ∈ S, Overlap e.1 k
      · rw [(h.1 hc).1]; exact hc
      · obtain ⟨r, hr, h2, -⟩ := h.2 hc
        rw [h2]; obtain ⟨p, hp⟩ := hk
        exact ⟨(r, v), Or.inr rfl, p, (hr.1 p).2 (Or.inl hp), hp⟩
    exact ⟨fun _ => ⟨rfl, rfl⟩, fun hn => absurd hex hn⟩
  | insertMergeTouchingIfValuesEqual k v =>
    have hk : Valid k := not_not.1 hb
    have hex : ∃ e ∈ S', Overlap e.1 k := by
      by_cases hc : ∃ e ∈ S, Overlap e.1 k
      · rw [(h.1 hc).1]; exact hc
      · obtain ⟨r, hr, h2, -⟩ := h.2 hc
        rw [h2]; obtain ⟨p, hp⟩ := hk
        exact ⟨(r, v), Or.inr rfl, p, (hr.1 p).2 (Or.inl hp), hp⟩
    exact ⟨fun _ => ⟨rfl, rfl⟩, fun hn => absurd hex hn⟩
  | insertMergeOverlapping k v =>
    have hk : Valid k := not_not.1 hb
    obtain ⟨r, hr, rfl, rfl⟩ := h
    have hrk : Overlap r k := by obtain ⟨p, hp⟩ := hk; exact ⟨p, (hr.1 p).2 (Or.inl hp), hp⟩
    have hns : ¬ StrictlyInside r k := fun ⟨⟨p, hp, hx⟩, _⟩ => lt_irrefl _ (hx p ((hr.1 p).2 (Or.inl hp)))
    refine ⟨r, ⟨fun p => ?_, fun hall => ?_, fun _ => ⟨_, (hcan r).symm⟩⟩, ?_, rfl⟩
    · constructor
      · exact fun hp => Or.inr ⟨(r, v), ⟨Or.inr rfl, hrk⟩, hp⟩
      · rintro (hp | ⟨e, ⟨he | rfl, ho⟩, hp⟩)
        · exact (hr.1 p).2 (Or.inl hp)
        · exact absurd ho he.2
        · exact hp
    · exact absurd (hall (r, v) ⟨Or.inr rfl, hrk⟩) hns
    · ext e
      simp only [Set.mem_union, Set.mem_ofPred_eq, Set.mem_singleton_iff]
      constructor
      · rintro (h1 | h1)
        · exact Or.inl ⟨Or.inl h1, h1.2⟩
        · exact Or.inr h1
      · rintro (⟨h1 | h1, h2⟩ | h1)
        · exact Or.inl h1
        · exact Or.inr h1
        · exact Or.inr h1
  | insertMergeTouchingOrOverlapping k v =>
    have hk : Valid k := not_not.1 hb
    obtain ⟨r, hr, rfl, rfl⟩ := h
    have hrk : Overlap r k := by obtain ⟨p, hp⟩ := hk; exact ⟨p, (hr.1 p).2 (Or.inl hp), hp⟩
    have hns : ¬ StrictlyInside r k := fun ⟨⟨p, hp, hx⟩, _⟩ => lt_irrefl _ (hx p ((hr.1 p).2 (Or.inl hp)))
    refine ⟨r, ⟨fun p => ?_, fun hall => ?_, fun _ => ⟨_, (hcan r).symm⟩⟩, ?_, rfl⟩
    · constructor
      · exact fun hp => Or.inr ⟨(r, v), ⟨Or.inr rfl, Or.inr hrk⟩, hp⟩
      · rintro (hp | ⟨e, ⟨he | rfl, ho⟩, hp⟩)
        · exact (hr.1 p).2 (Or.inl hp)
        · exact absurd ho he.2
        · exact hp
    · exact absurd (hall (r, v) ⟨Or.inr rfl, Or.inr hrk⟩) hns
    · ext e
      simp only [Set.mem_union, Set.mem_ofPred_eq, Set.mem_singleton_iff]
      constructor
      · rintro (h1 | h1)
        · exact Or.inl ⟨Or.inl h1, h1.2⟩
        · exact Or.inr h1
      · rintro (⟨h1 | h1, h2⟩ | h1)
        · exact Or.inl h1
        · exact Or.inr h1
        · exact Or.inr h1
  | insertOverwrite k v =>
    have hk : Valid k := not_not.1 hb
    obtain ⟨l, -, rfl, rfl⟩ := h
    have hkk : Overlap k k := by obtain ⟨p, hp⟩ := hk; exact ⟨p, hp, hp⟩
    refine ⟨[(k, v)], ⟨⟨by simpa using hk, List.pairwise_singleton ..⟩, fun e => ?_⟩, ?_, rfl⟩
    · simp only [List.mem_singleton]
      constructor
      · rintro rfl
        exact ⟨(k, v), Or.inr rfl, ⟨start k, stop k⟩, by rw [hcan], hk, fun p => by simp [Mem, start, stop]⟩
      · rintro ⟨f, hf | hf, i, rfl, ⟨p, hp⟩, hid⟩
        · exact absurd ⟨p, (hid p).1 hp⟩ (cutRemaining_not_overlap hf)
        · have hf' : f = (k, v) := hf
          subst hf'
          have hki := valid_iff.1 hk
          have h1 := (hid (start k)).2 ⟨⟨le_refl _, hki⟩, le_refl _, hki⟩
          have h2 := (hid (stop k)).2 ⟨⟨hki, le_refl _⟩, hki, le_refl _⟩
          have h3 := (hid i.start).1 ⟨le_refl _, le_trans hp.1 hp.2⟩
          have h4 := (hid i.stop).1 ⟨le_trans hp.1 hp.2, le_refl _⟩
          have e1 : i = ⟨start k, stop k⟩ := by
            cases i with | mk a b => 
            have := le_antisymm h1.1 h3.1.1
            have := le_antisymm h4.1.2 h2.2
            simp_all [start]
          rw [e1, hcan]
    · ext e
      constructor
      · rintro (he | he)
        · exact Or.inl (Or.inl ⟨Or.inl he, cutRemaining_not_overlap he⟩)
        · exact Or.inr he
      · rintro ((⟨he, -⟩ | ⟨f, hf | hf, ho, i, rfl, hd⟩) | he)
        · exact he
        · exact absurd ho (cutRemaining_not_overlap hf)
        · have hf' : f = (k, v) := hf
          subst hf'
          rcases hd with ⟨⟨p, hp⟩, hd⟩ | ⟨⟨p, hp⟩, hd⟩
          · have := (hd p).1 hp; exact absurd (this.2 p this.1) (lt_irrefl _)
          · have := (hd p).1 hp; exact absurd (this.2 p this.1) (lt_irrefl _)
        · exact Or.inr he
  | cut q =>
    obtain ⟨l, -, rfl, rfl⟩ := h
    obtain ⟨h1, h2⟩ := cutRemaining_eq_self (S := CutRemaining S q) (q := q) fun e he => cutRemaining_not_overlap he
    exact ⟨[], ⟨⟨by simp, List.Pairwise.nil⟩, fun e => by rw [h2]; simp⟩, h1.symm, rfl⟩
  | removeOverlapping q =>
    obtain ⟨l, -, rfl, rfl⟩ := h
    refine ⟨[], ⟨⟨by simp, List.Pairwise.nil⟩, fun e => ?_⟩, ?_, rfl⟩
    · simp only [List.not_mem_nil, Set.mem_ofPred_eq, false_iff]; exact fun h => h.1.2 h.2
    · ext e; simp only [Set.mem_ofPred_eq]; tauto
  | overlappingMut q f =>
    obtain ⟨rfl, rfl⟩ := h
    refine ⟨?_, rfl⟩
    ext e
    simp only [Set.mem_ofPred_eq]
    constructor
    · rintro ⟨d, hd, ⟨ho, rfl⟩ | ⟨ho, rfl⟩⟩
      · exact ⟨_, ⟨d, hd, Or.inl ⟨ho, rfl⟩⟩, Or.inl ⟨ho, by rw [hi d.1 d.2]⟩⟩
      · exact ⟨_, ⟨_, hd, Or.inr ⟨ho, rfl⟩⟩, Or.inr ⟨ho, rfl⟩⟩
    · rintro ⟨d, ⟨d', hd', ⟨ho, rfl⟩ | ⟨ho, rfl⟩⟩, ⟨ho', rfl⟩ | ⟨ho', rfl⟩⟩
      · exact ⟨_, hd', Or.inl ⟨ho, by rw [hi d'.1 d'.2]⟩⟩
      · exact absurd ho ho'
      · exact absurd ho' ho
      · exact ⟨_, hd', Or.inr ⟨ho, rfl⟩⟩
  | getAtPointMut p f =>
    obtain ⟨r, hr, rfl, rfl⟩ := h
    refine ⟨r.map f, fun v => ?_, ?_, rfl⟩
    · rw [Option.map_eq_some_iff]
      constructor
      · rintro ⟨w, hw, rfl⟩
        obtain ⟨e, he, hpe, rfl⟩ := (hr w).1 hw
        exact ⟨_, ⟨e, he, Or.inl ⟨hpe, rfl⟩⟩, hpe, rfl⟩
      · rintro ⟨e, ⟨d, hd, ⟨hpd, rfl⟩ | ⟨hpd, rfl⟩⟩, hpe, rfl⟩
        · exact ⟨d.2, (hr _).2 ⟨d, hd, hpd, rfl⟩, rfl⟩
        · exact absurd hpe hpd
    · ext e
      simp only [Set.mem_ofPred_eq]
      constructor
      · rintro ⟨d, hd, ⟨ho, rfl⟩ | ⟨ho, rfl⟩⟩
        · exact ⟨_, ⟨d, hd, Or.inl ⟨ho, rfl⟩⟩, Or.inl ⟨ho, by rw [hi d.2]⟩⟩
        · exact ⟨_, ⟨_, hd, Or.inr ⟨ho, rfl⟩⟩, Or.inr ⟨ho, rfl⟩⟩
      · rintro ⟨d, ⟨d', hd', ⟨ho, rfl⟩ | ⟨ho, rfl⟩⟩, ⟨ho', rfl⟩ | ⟨ho', rfl⟩⟩
        · exact ⟨_, hd', Or.inl ⟨ho, by rw [hi d'.2]⟩⟩
        · exact absurd ho ho'
        · exact absurd ho' ho
        · exact ⟨_, hd', Or.inr ⟨ho, rfl⟩⟩
  | iterMut f =>
    obtain ⟨rfl, rfl⟩ := h
    refine ⟨?_, rfl⟩
    ext e
    simp only [Set.mem_ofPred_eq]
    constructor
    · rintro ⟨d, hd, rfl⟩
      exact ⟨_, ⟨d, hd, rfl⟩, by rw [hi d.1 d.2]⟩
    · rintro ⟨d, ⟨d', hd', rfl⟩, rfl⟩
      exact ⟨d', hd', by rw [hi d'.1 d'.2]⟩
  | overlapping q => obtain ⟨l, h1, rfl, rfl⟩ := h; exact ⟨l, h1, rfl, rfl⟩
  | overlaps q => obtain ⟨l, h1, rfl, rfl⟩ := h; exact ⟨l, h1, rfl, rfl⟩
  | gapsUntrimmed q => obtain ⟨l, h1, rfl, rfl⟩ := h; exact ⟨l, h1, rfl, rfl⟩
  | gapsTrimmed q => obtain ⟨l, h1, rfl, rfl⟩ := h; exact ⟨l, h1, rfl, rfl⟩
  | containsInterval q => obtain ⟨l, h1, rfl, rfl⟩ := h; exact ⟨l, h1, rfl, rfl⟩
  | getAtPoint p => obtain ⟨l, h1, rfl, rfl⟩ := h; exact ⟨l, h1, rfl, rfl⟩
  | getKeyValueAtPoint p => obtain ⟨l, h1, h2, rfl, rfl⟩ := h; exact ⟨l, h1, h2, rfl, rfl⟩
  | containsPoint p => obtain ⟨l, h1, rfl, rfl⟩ := h; exact ⟨l, h1, rfl, rfl⟩
  | iter => obtain ⟨l, h1, rfl, rfl⟩ := h; exact ⟨l, h1, rfl, rfl⟩
  | len => obtain ⟨l, h1, rfl, rfl⟩ := h; exact ⟨l, h1, rfl, rfl⟩
  | isEmpty => obtain ⟨l, h1, rfl, rfl⟩ := h; exact ⟨l, h1, rfl, rfl⟩
  | firstKeyValue => obtain ⟨l, h1, rfl, rfl⟩ := h; exact ⟨l, h1, rfl, rfl⟩
  | lastKeyValue => obtain ⟨l, h1, rfl, rfl⟩ := h; exact ⟨l, h1, rfl, rfl⟩

/-- **C113**: the second of two identical calls of a `NoditMap` does not change the map and returns what `Op.again` says. (`hcan`: the
interval type is determined by its two ends, as `Interval` is; only the keys stored by the overlapping merges and returned by `cut` depend
on it.) -/
theorem C113_map_again [BEq V] (hcan : ∀ k : K, ofInterval ⟨start k, stop k⟩ = k) {m m₁ : NoditMap K V} (h : WF m.iter) {op : Op I K V}
    (hi : op.Idempotent) {o : Out K V} (hs : m.step op = .ok (m₁, o)) : m₁.step op = .ok (m₁, op.again o) := by
  rcases NoditMap.step_refines h op with ⟨-, h1⟩ | ⟨hb, m', o', h1, h2, h3⟩
  · rw [h1] at hs; cases hs
  · rw [h1] at hs
    cases hs
    rcases NoditMap.step_refines h2 op with ⟨hb', -⟩ | ⟨-, m₂, o₂, h4, h5, h6⟩
    · exact absurd hb' hb
    · obtain ⟨e1, e2⟩ := C20_reference_machine_deterministic (Or.inr ⟨hb, _, rfl, h6⟩)
        (Or.inr ⟨hb, _, rfl, specOp_again hcan hb hi h3⟩)
      cases e2
      rw [h4, NoditMap.ext_entries h5 h2 fun e => Set.ext_iff.1 e1 e]

/-- **C113**: a program that makes each of its calls any number of times in a row leaves the same `NoditMap` as the program that makes each
call once (calls that panic included). -/
theorem C113_map_history [BEq V] (hcan : ∀ k : K, ofInterval ⟨start k, stop k⟩ = k) {m : NoditMap K V} (h : WF m.iter)
    (calls : List (Op I K V × Nat)) (hi : ∀ c ∈ calls, c.1.Idempotent) :
    (m.run (calls.flatMap fun c => List.replicate (c.2 + 1) c.1)).1 = (m.run (calls.map Prod.fst)).1 := by
  induction calls generalizing m with
  | nil => rfl
  | cons c calls ih =>
    obtain ⟨op, n⟩ := c
    have hrep : ∀ (n : Nat) (m : NoditMap K V) (rest : List (Op I K V)), (m.step op = .error .invalidInterval ∨ ∃ o, m.step op = .ok (m, o)) →
        WF m.iter → (m.run (List.replicate n op ++ rest)).1 = (m.run rest).1 := by
      intro n
      induction n with
      | zero => intro m rest _ _; rfl
      | succ n ihn =>
        intro m rest hm hw
        rw [List.replicate_succ, List.cons_append]
        rcases hm with hm | ⟨o, hm⟩
        · simp only [NoditMap.run, hm]; exact ihn m rest (Or.inl hm) hw
        · simp only [NoditMap.run, hm]; exact ihn m rest (Or.inr ⟨o, hm⟩) hw
    have hi' : ∀ c ∈ calls, c.1.Idempotent := fun c hc => hi c (List.mem_cons_of_mem _ hc)
    have hop : op.Idempotent := hi (op, n) (by simp)
    simp only [List.flatMap_cons, List.replicate_succ, List.cons_append, List.map_cons]
    rcases NoditMap.step_refines h op with ⟨hb, h1⟩ | ⟨hb, m', o', h1, h2, -⟩
    · simp only [NoditMap.run, h1]
      rw [hrep n m _ (Or.inl h1) h]; exact ih h hi'
    · simp only [NoditMap.run, h1]
      rw [hrep n m' _ (Or.inr ⟨_, C113_map_again hcan h hop h1⟩) h2]; exact ih h2 hi'

/-- **C113**: the same for `NoditSet`. -/
theorem C113_set_again (hcan : ∀ k : K, ofInterval ⟨start k, stop k⟩ = k) {s s₁ : NoditSet K} (h : Ascending s.iter) {op : SetCall I K}
    {o : SetOut K} (hs : s.stepCall op = .ok (s₁, o)) : s₁.stepCall op = .ok (s₁, op.again o) := by
  have hid : op.toMap.Idempotent := by cases op <;> trivial
  rw [stepCall_eq] at hs
  cases h1 : s.inner.step op.toMap with
  | error p => rw [h1] at hs; cases hs
  | ok r =>
    rw [h1] at hs
    cases hs
    rw [stepCall_eq, C113_map_again hcan (NoditSet.wf_iff.2 h) hid h1]
    simp only [Except.map]
    congr 2
    cases op <;> rfl
end

section
variable {I K D : Type} [PointType I] [IntervalType I K] [LawfulPoint I] [LawfulInterval I K] [DecidableEq D]

/-- **C113**: the second of two identical inserts or cuts of a `Gqdit` changes nothing, and neither does appending the same `Gqdit` again. -/
theorem C113_gqdit_again {h h' : GqHist I K D} (hb : ¬ h.Bad) (hb' : ¬ h'.Bad) (ids : Finset D) {k : K} (hk : Valid k) {q : Interval I} (hq : Valid q) :
    (∃ g : Gqdit K D, Gqdit.eval (h.insert ids k) = .ok g ∧ g.insert ids k = .ok g) ∧
    (∃ g : Gqdit K D, Gqdit.eval (h.cutWithIdentifiers ids q) = .ok g ∧ g.cutWithIdentifiers ids q = .ok g) ∧
    (∃ g : Gqdit K D, Gqdit.eval (h.cutAllIdentifiers q) = .ok g ∧ g.cutAllIdentifiers q = .ok g) ∧
    (∃ g : Gqdit K D, Gqdit.eval (h.append h') = .ok g ∧ Gqdit.eval ((h.append h').append h') = .ok g) := by
  have key : ∀ (a : GqHist I K D) (f : GqHist I K D → GqHist I K D) (F : Gqdit K D → Res (Gqdit K D)), ¬ (f a).Bad → ¬ (f (f a)).Bad →
      (∀ p, (f (f a)).idsAt p = (f a).idsAt p) → (∀ b, Gqdit.eval (f b) = Gqdit.eval b >>= F) →
      ∃ g : Gqdit K D, Gqdit.eval (f a) = .ok g ∧ F g = .ok g := by
    intro a f F h1 h2 h3 h4
    obtain ⟨g, e1, e2⟩ := eval_congr h2 h1 h3
    refine ⟨g, e2, ?_⟩
    rw [h4, e2] at e1; exact e1
  refine ⟨key h (·.insert ids k) (·.insert ids k) ?_ ?_ (fun p => ?_) fun _ => rfl,
    key h (·.cutWithIdentifiers ids q) (·.cutWithIdentifiers ids q) ?_ ?_ (fun p => ?_) fun _ => rfl,
    key h (·.cutAllIdentifiers q) (·.cutAllIdentifiers q) ?_ ?_ (fun p => ?_) fun _ => rfl,
    eval_congr ?_ ?_ fun p => ?_⟩
  any_goals simp [GqHist.Bad, hb, hb', hk, hq]
  all_goals (simp only [GqHist.idsAt]; try split_ifs)
  all_goals first | rfl | (ext x; simp; try tauto)
end

section
variable {I K V Q : Type} [PointType I] [IntervalType I K] [IntervalType I Q] [LawfulPoint I] [LawfulInterval I K]
open ZosditMap

/-- **C113**: a second identical `insert_strict_back` of a `ZosditMap` is refused if the first was refused or if the interval has two points
or more; a value for a single point that was accepted is accepted once more and is there twice. -/
theorem C113_zosdit_insert_again (ops : List (ZOp I K V)) {k : K} (hk : Valid k) (v : V) (pick pick' : Nat) :
    ∃ m' r, (after ops).insertStrictBack k v pick = .ok (m', r) ∧
      ((r = .error ⟨v⟩ ∨ ∃ p p', Mem p k ∧ Mem p' k ∧ p < p') → m'.insertStrictBack k v pick' = .ok (m', .error ⟨v⟩)) ∧
      ((r = .ok () ∧ ∀ p p', Mem p k → Mem p' k → p = p') → ∃ m'', m'.insertStrictBack k v pick' = .ok (m'', .ok ()) ∧
        m''.iter.length = (after ops).iter.length + 2 ∧ m''.length = (after ops).length + 2) := by
  have hg := good_after ops
  rcases insert_exact hg hk v pick with ⟨h1, h2⟩ | ⟨h1, m', h2, h3, h4, -, l1, k', l2, e1, e2, e3, -⟩
  · refine ⟨_, _, h2, fun _ => ?_, fun h => (nomatch h.1)⟩
    rcases insert_exact hg hk v pick' with ⟨-, h4⟩ | ⟨h3, -⟩
    · exact h4
    · obtain ⟨e, he, hn⟩ := h1; exact absurd (h3 e he) hn
  · refine ⟨_, _, h2, ?_, ?_⟩
    · rintro (h | ⟨p, p', hp, hp', hlt⟩)
      · cases h
      · rcases insert_exact h3 hk v pick' with ⟨-, h5⟩ | ⟨h5, -⟩
        · exact h5
        · have := h5 (k', v) (by rw [e2]; simp)
          exact absurd (this.1 p p' ((e3 p).2 hp) hp ((e3 p').2 hp') hp') (ne_of_lt hlt)
    · rintro ⟨-, hone⟩
      have hz : ∀ e ∈ m'.iter, ZeroOverlap e.1 k := by
        intro e he
        rw [e2] at he
        have : e ∈ (after ops).iter ∨ e = (k', v) := by
          rw [e1]; simp only [List.mem_append, List.mem_cons] at he ⊢; tauto
        rcases this with he | rfl
        · exact h1 e he
        · have hk'' := valid_iff.1 hk
          have hvk : Valid k' := by obtain ⟨p, hp⟩ := hk; exact ⟨p, (e3 p).2 hp⟩
          have hvk' := valid_iff.1 hvk
          refine ⟨fun p p' _ hp _ hp' => hone p p' hp hp', fun p hp hp' => ⟨Or.inl ?_, Or.inl ?_⟩⟩
          · exact hone _ _ hp' ((e3 _).1 ⟨le_refl _, hvk'⟩)
          · exact hone _ _ hp' ⟨le_refl _, hk''⟩
      rcases insert_exact h3 hk v pick' with ⟨⟨e, he, hn⟩, -⟩ | ⟨-, m'', h5, -, h6, -, f1, f2, f3, g1, g2, -⟩
      · exact absurd (hz e he) hn
      · refine ⟨m'', h5, ?_, ?_⟩
        · have a1 := congrArg List.length e1
          have a2 := congrArg List.length e2
          have a3 := congrArg List.length g1
          have a4 := congrArg List.length g2
          simp only [List.length_append, List.length_cons] at a1 a2 a3 a4
          omega
        · show m''.len = (after ops).len + 2
          omega

/-- **C113**: a second identical `cut` of a `ZosditMap` returns nothing and changes neither the entries nor `len()`. -/
theorem C113_zosdit_cut_again (ops : List (ZOp I K V)) {q : Q} (hq : Valid q) :
    ∃ m' r m'', (after ops).cut q = .ok (m', r) ∧ m'.cut q = .ok (m'', []) ∧ m''.iter = m'.iter ∧ m''.length = m'.length := by
  rcases cut_exact (good_after ops) hq with ⟨-, h2⟩ | ⟨-, m1, r, h2, h3, h4, -⟩
  · exact ⟨_, _, _, h2, h2, rfl, rfl⟩
  · rcases cut_exact h4 hq with ⟨-, h5⟩ | ⟨-, m2, r2, h5, h6, -, h7⟩
    · exact ⟨_, _, _, h2, h5, rfl, rfl⟩
    · obtain ⟨e1, rfl⟩ := cutAll_disjoint h6 (cutAll_left h3)
      refine ⟨_, _, _, h2, h5, e1, ?_⟩
      rw [e1] at h7
      show m2.len = m1.len
      omega
end

namespace Demo
/-- the interval type of `hcan` -/
example : ∀ k : Interval U8, ofInterval ⟨start k, stop k⟩ = k := fun _ => rfl
/-- two entries are joined; the second call finds the joined entry and reports the same -/
example : ∃ m₁, m.step (.insertMergeTouchingOrOverlapping (iv 5 14) 3) = .ok (m₁, .key (iv 3 15)) ∧
    m₁.step (.insertMergeTouchingOrOverlapping (iv 5 14) 3) = .ok (m₁, .key (iv 3 15)) ∧ m₁ ≠ m :=
  ⟨_, rfl, C113_map_again (V := Nat) (op := .insertMergeTouchingOrOverlapping (iv 5 14) 3) (fun _ => rfl) (C01_invariant ops) trivial rfl, by decide⟩
example : ∃ m₁ o, m.step (.insertOverwrite (iv 5 14) 3) = .ok (m₁, .entries o) ∧ o.length = 2 ∧
    m₁.step (.insertOverwrite (iv 5 14) 3) = .ok (m₁, .entries [(iv 5 14, 3)]) :=
  ⟨_, _, rfl, rfl, C113_map_again (V := Nat) (op := .insertOverwrite (iv 5 14) 3) (fun _ => rfl) (C01_invariant ops) trivial rfl⟩
example := C113_map_history (V := Nat) (fun _ => rfl) (C01_invariant ops) [(.cut (iv 4 11), 2), (.insertStrict (iv 5 7) 1, 0), (.insertOverwrite (iv 7 9) 5, 4)]
  (by simp [Op.Idempotent])
/-- without idempotence of what the caller does to the values the law fails -/
example : (m.run [.iterMut fun _ v => v + 1, .iterMut fun _ v => v + 1]).1 ≠ (m.run [.iterMut fun _ v => v + 1]).1 := by decide
example : ∃ m' m'' : ZosditMap (Interval U8) Nat, (ZosditMap.after zops).insertStrictBack (iv 100 100) 1 0 = .ok (m', .ok ()) ∧
    m'.insertStrictBack (iv 100 100) 1 0 = .ok (m'', .ok ()) ∧ m''.iter.length = (ZosditMap.after zops).iter.length + 2 :=
  ⟨_, _, rfl, rfl, by decide⟩
end Demo
end Nodit
