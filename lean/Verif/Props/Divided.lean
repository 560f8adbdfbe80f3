import Verif.Props.Rollback
/-!
# C118: how the entries are divided

Two maps with the same values at the same points, whose entries are divided differently, and a client that uses both in the
same way.
-/
set_option linter.unusedSectionVars false
namespace Nodit
open Spec PointType

namespace Spec
variable {I K V : Type} [PointType I] [IntervalType I K]

/-- The two lists of entries have the same values at the points satisfying `P`. A specification, models no lines of `/repo`. -/
def SameOn (P : I → Prop) (l l' : List (K × V)) : Prop :=
  ∀ p, P p → ∀ v, (∃ e ∈ l, Mem p e.1 ∧ e.2 = v) ↔ ∃ e ∈ l', Mem p e.1 ∧ e.2 = v

/-- What a client can still tell from the results of the same call to two maps with the same values at the same points. A
specification, models no lines of `/repo`. -/
def Op.SameResult : Op I K V → Out K V → Out K V → Prop
  | .insertOverwrite _ _, .entries l, .entries l' | .cut _, .entries l, .entries l' | .iter, .entries l, .entries l' =>
    SameOn (I := I) (fun _ => True) l l'
  | .overlapping q, .entries l, .entries l' => SameOn (fun p => Mem p q) l l'
  | .insertMergeTouchingIfValuesEqual _ _, .merge (.ok _), .merge (.ok _) | .insertMergeTouching _ _, .merge (.ok _), .merge (.ok _)
  | .insertMergeOverlapping _ _, .key _, .key _ | .insertMergeTouchingOrOverlapping _ _, .key _, .key _ => True
  | .getKeyValueAtPoint _, .lookup (.ok e), .lookup (.ok e') => e.2 = e'.2
  | .firstKeyValue, .optEntry (some e), .optEntry (some e') => (start e.1 : I) = start e'.1 ∧ e.2 = e'.2
  | .lastKeyValue, .optEntry (some e), .optEntry (some e') => (stop e.1 : I) = stop e'.1 ∧ e.2 = e'.2
  | .len, .nat n, .nat n' => n = 0 ↔ n' = 0
  | _, o, o' => o = o'
/-- The point-wise calls, and the merging inserts if there is only one value. A specification, models no lines of `/repo`. -/
def Op.OnPoints (op : Op I K V) : Prop :=
  op.Pointwise ∨ ((∀ v w : V, v = w) ∧ ∃ k v,
    op = .insertMergeTouching k v ∨ op = .insertMergeOverlapping k v ∨ op = .insertMergeTouchingOrOverlapping k v)
end Spec

section
variable {I K V : Type} [PointType I] [IntervalType I K] [LawfulPoint I] [LawfulInterval I K]

theorem covered_iff {S : Set (K × V)} {f : I → Option V} (hf : Holds S f) (p : I) : Covered S p ↔ f p ≠ none := by
  rw [Option.ne_none_iff_exists']
  constructor
  · rintro ⟨e, he, hp⟩
    exact ⟨e.2, (hf p _).2 ⟨e, he, hp, rfl⟩⟩
  · rintro ⟨v, hv⟩
    obtain ⟨e, he, hp, -⟩ := (hf p v).1 hv
    exact ⟨e, he, hp⟩

theorem some_overlap_iff {S : Set (K × V)} {f : I → Option V} (hf : Holds S f) {A : Type} [IntervalType I A] (q : A) :
    (∃ e ∈ S, Overlap e.1 q) ↔ ∃ p, Mem p q ∧ f p ≠ none := by
  constructor
  · rintro ⟨e, he, p, hp, hq⟩
    exact ⟨p, hq, (covered_iff hf p).1 ⟨e, he, hp⟩⟩
  · rintro ⟨p, hq, hp⟩
    obtain ⟨e, he, hp⟩ := (covered_iff hf p).2 hp
    exact ⟨e, he, p, hp, hq⟩

theorem lists_sameOn {P : I → Prop} {l l' : List (K × V)} {S S' : Set (K × V)} (h : Lists l S) (h' : Lists l' S')
    (hS : ∀ p, P p → ∀ v, (∃ e ∈ S, Mem p e.1 ∧ e.2 = v) ↔ ∃ e ∈ S', Mem p e.1 ∧ e.2 = v) : SameOn P l l' := by
  intro p hp v
  simp only [h.2, h'.2]
  exact hS p hp v

/-- the first entry holds the lowest covered point -/
theorem first_iff {S : Set (K × V)} {f : I → Option V} (hf : Holds S f) (hS : ∀ e ∈ S, Valid (I := I) e.1) {e : K × V} (he : e ∈ S)
    (hfirst : ∀ d ∈ S, d ≠ e → Before e.1 d.1) : f (start e.1) = some e.2 ∧ ∀ p : I, f p ≠ none → start e.1 ≤ p := by
  refine ⟨(hf _ _).2 ⟨e, he, ⟨le_refl _, valid_iff.1 (hS e he)⟩, rfl⟩, fun p hp => ?_⟩
  obtain ⟨d, hd, hp⟩ := (covered_iff hf p).2 hp
  by_cases hde : d = e
  · exact hde ▸ hp.1
  · exact (hfirst d hd hde _ p ⟨le_refl _, valid_iff.1 (hS e he)⟩ hp).le

theorem last_iff {S : Set (K × V)} {f : I → Option V} (hf : Holds S f) (hS : ∀ e ∈ S, Valid (I := I) e.1) {e : K × V} (he : e ∈ S)
    (hlast : ∀ d ∈ S, d ≠ e → Before d.1 e.1) : f (stop e.1) = some e.2 ∧ ∀ p : I, f p ≠ none → p ≤ stop e.1 := by
  refine ⟨(hf _ _).2 ⟨e, he, ⟨valid_iff.1 (hS e he), le_refl _⟩, rfl⟩, fun p hp => ?_⟩
  obtain ⟨d, hd, hp⟩ := (covered_iff hf p).2 hp
  by_cases hde : d = e
  · exact hde ▸ hp.2
  · exact (hlast d hd hde p _ hp ⟨valid_iff.1 (hS e he), le_refl _⟩).le

theorem exists_first {l : List (K × V)} (h : WF l) {x : K × V} (hx : x ∈ l) : ∃ e ∈ l, ∀ d ∈ l, d ≠ e → Before e.1 d.1 := by
  cases l with
  | nil => cases hx
  | cons a l =>
    refine ⟨a, by simp, fun d hd hne => ?_⟩
    rcases List.mem_cons.1 hd with rfl | hd
    · exact absurd rfl hne
    · exact (List.pairwise_cons.1 h.2).1 d hd

theorem exists_last {l : List (K × V)} (h : WF l) {x : K × V} (hx : x ∈ l) : ∃ e ∈ l, ∀ d ∈ l, d ≠ e → Before d.1 e.1 := by
  rcases List.eq_nil_or_concat l with rfl | ⟨l, a, rfl⟩
  · cases hx
  · refine ⟨a, by simp, fun d hd hne => ?_⟩
    rw [List.concat_eq_append] at h hd
    rw [List.mem_append] at hd
    rcases hd with hd | hd
    · exact (List.pairwise_append.1 h.2).2.2 d hd a (by simp)
    · exact absurd (List.mem_singleton.1 hd) hne

theorem sameResult [BEq V] {m m' : NoditMap K V} (h : WF m.iter) (h' : WF m'.iter) {f : I → Option V}
    (hf : Holds m.entrySet f) (hf' : Holds m'.entrySet f) {op : Op I K V} (hop : op.OnPoints) (hb : ¬ op.Bad)
    {S S' : Set (K × V)} {o o' : Out K V} (hs : SpecOp m.entrySet op S o) (hs' : SpecOp m'.entrySet op S' o') :
    op.SameResult o o' := by
  have hcov : ∀ p : I, Covered m.entrySet p ↔ Covered m'.entrySet p := fun p => by rw [covered_iff hf, covered_iff hf']
  have hovl : ∀ {A : Type} [IntervalType I A] (q : A), (∃ e ∈ m.entrySet, Overlap e.1 q) ↔ ∃ e ∈ m'.entrySet, Overlap e.1 q :=
    fun q => by rw [some_overlap_iff hf, some_overlap_iff hf']
  have hpts : ∀ (p : I) v, (∃ e ∈ m.entrySet, Mem p e.1 ∧ e.2 = v) ↔ ∃ e ∈ m'.entrySet, Mem p e.1 ∧ e.2 = v :=
    fun p v => by rw [← hf, ← hf']
  have hv : ∀ e ∈ m.entrySet, Valid (I := I) e.1 := h.1
  have hv' : ∀ e ∈ m'.entrySet, Valid (I := I) e.1 := h'.1
  have hempty : (∀ e, e ∉ m.entrySet) ↔ ∀ e, e ∉ m'.entrySet := by
    constructor
    · intro hn e he
      obtain ⟨p, hp⟩ := hv' e he
      obtain ⟨d, hd, -⟩ := (hcov p).2 ⟨e, he, hp⟩
      exact hn d hd
    · intro hn e he
      obtain ⟨p, hp⟩ := hv e he
      obtain ⟨d, hd, -⟩ := (hcov p).1 ⟨e, he, hp⟩
      exact hn d hd
  have hrun : ∀ i : Interval I, MaximalRun (fun p => ¬ Covered m.entrySet p) i ↔ MaximalRun (fun p => ¬ Covered m'.entrySet p) i :=
    fun i => by simp only [hcov]
  cases op with
  | removeOverlapping _ | overlappingMut _ _ | getAtPointMut _ _ | iterMut _ =>
    rcases hop with hop | ⟨-, k, v, hop | hop | hop⟩
    · exact hop.elim
    all_goals exact nomatch hop
  | insertMergeOverlapping k v | insertMergeTouchingOrOverlapping k v =>
    obtain ⟨r, -, -, rfl⟩ := hs
    obtain ⟨r', -, -, rfl⟩ := hs'
    exact trivial
  | insertMergeTouching k v =>
    by_cases hc : ∃ e ∈ m.entrySet, Overlap e.1 k
    · obtain ⟨-, rfl⟩ := hs.1 hc
      obtain ⟨-, rfl⟩ := hs'.1 ((hovl k).1 hc)
      exact rfl
    · obtain ⟨r, -, -, rfl⟩ := hs.2 hc
      obtain ⟨r', -, -, rfl⟩ := hs'.2 (fun hc' => hc ((hovl k).2 hc'))
      exact trivial
  | insertStrict k v =>
    by_cases hc : ∃ e ∈ m.entrySet, Overlap e.1 k
    · obtain ⟨-, rfl⟩ := hs.1 hc
      obtain ⟨-, rfl⟩ := hs'.1 ((hovl k).1 hc)
      exact rfl
    · obtain ⟨-, rfl⟩ := hs.2 hc
      obtain ⟨-, rfl⟩ := hs'.2 (fun hc' => hc ((hovl k).2 hc'))
      exact rfl
  | insertMergeTouchingIfValuesEqual k v =>
    by_cases hc : ∃ e ∈ m.entrySet, Overlap e.1 k
    · obtain ⟨-, rfl⟩ := hs.1 hc
      obtain ⟨-, rfl⟩ := hs'.1 ((hovl k).1 hc)
      exact rfl
    · obtain ⟨r, -, -, rfl⟩ := hs.2 hc
      obtain ⟨r', -, -, rfl⟩ := hs'.2 (fun hc' => hc ((hovl k).2 hc'))
      exact trivial
  | insertOverwrite k v =>
    obtain ⟨l, hl, -, rfl⟩ := hs
    obtain ⟨l', hl', -, rfl⟩ := hs'
    exact lists_sameOn hl hl' fun p _ v => by rw [cutReturned_holds hf, cutReturned_holds hf']
  | cut q =>
    obtain ⟨l, hl, -, rfl⟩ := hs
    obtain ⟨l', hl', -, rfl⟩ := hs'
    exact lists_sameOn hl hl' fun p _ v => by rw [cutReturned_holds hf, cutReturned_holds hf']
  | overlapping q =>
    obtain ⟨l, hl, -, rfl⟩ := hs
    obtain ⟨l', hl', -, rfl⟩ := hs'
    refine lists_sameOn hl hl' fun p hp v => ?_
    constructor
    · rintro ⟨e, ⟨he, -⟩, hpe, hv⟩
      obtain ⟨d, hd, hpd, hv⟩ := (hpts p v).1 ⟨e, he, hpe, hv⟩
      exact ⟨d, ⟨hd, p, hpd, hp⟩, hpd, hv⟩
    · rintro ⟨e, ⟨he, -⟩, hpe, hv⟩
      obtain ⟨d, hd, hpd, hv⟩ := (hpts p v).2 ⟨e, he, hpe, hv⟩
      exact ⟨d, ⟨hd, p, hpd, hp⟩, hpd, hv⟩
  | iter =>
    obtain ⟨l, hl, -, rfl⟩ := hs
    obtain ⟨l', hl', -, rfl⟩ := hs'
    exact lists_sameOn hl hl' fun p _ v => hpts p v
  | overlaps q =>
    obtain ⟨b, hb1, -, rfl⟩ := hs
    obtain ⟨b', hb2, -, rfl⟩ := hs'
    exact congrArg Out.bool (bool_unique (hb1.trans (hovl q)) hb2)
  | containsInterval q =>
    obtain ⟨b, hb1, -, rfl⟩ := hs
    obtain ⟨b', hb2, -, rfl⟩ := hs'
    exact congrArg Out.bool (bool_unique (hb1.trans (by simp only [hcov])) hb2)
  | containsPoint p =>
    obtain ⟨b, hb1, -, rfl⟩ := hs
    obtain ⟨b', hb2, -, rfl⟩ := hs'
    exact congrArg Out.bool (bool_unique (hb1.trans (hcov p)) hb2)
  | isEmpty =>
    obtain ⟨b, hb1, -, rfl⟩ := hs
    obtain ⟨b', hb2, -, rfl⟩ := hs'
    exact congrArg Out.bool (bool_unique (hb1.trans hempty) hb2)
  | gapsUntrimmed q =>
    obtain ⟨l, hl, -, rfl⟩ := hs
    obtain ⟨l', hl', -, rfl⟩ := hs'
    simp only [hrun] at hl
    exact congrArg Out.keys (ListsIntervals.unique hl hl')
  | gapsTrimmed q =>
    obtain ⟨l, hl, -, rfl⟩ := hs
    obtain ⟨l', hl', -, rfl⟩ := hs'
    simp only [hrun] at hl
    exact congrArg Out.keys (ListsIntervals.unique hl hl')
  | getAtPoint p =>
    obtain ⟨r, hr, -, rfl⟩ := hs
    obtain ⟨r', hr', -, rfl⟩ := hs'
    exact congrArg Out.optValue (option_unique (fun v => (hr v).trans (hpts p v)) hr')
  | len =>
    obtain ⟨l, hl, -, rfl⟩ := hs
    obtain ⟨l', hl', -, rfl⟩ := hs'
    show l.length = 0 ↔ l'.length = 0
    rw [List.length_eq_zero_iff, List.length_eq_zero_iff, List.eq_nil_iff_forall_not_mem, List.eq_nil_iff_forall_not_mem]
    simp only [hl.2, hl'.2]
    exact hempty
  | firstKeyValue =>
    obtain ⟨r, hr, -, rfl⟩ := hs
    obtain ⟨r', hr', -, rfl⟩ := hs'
    cases r with
    | none =>
      cases r' with
      | none => exact rfl
      | some e' =>
        by_contra
        refine absurd ((hr' e').1 rfl).1 (hempty.1 (fun e he => ?_) e')
        obtain ⟨d, hd, hd2⟩ := exists_first h he
        exact nomatch (hr d).2 ⟨hd, hd2⟩
    | some e =>
      obtain ⟨he, he2⟩ := (hr e).1 rfl
      cases r' with
      | none =>
        by_contra
        refine absurd he (hempty.2 (fun x hx => ?_) e)
        obtain ⟨d, hd, hd2⟩ := exists_first h' hx
        exact nomatch (hr' d).2 ⟨hd, hd2⟩
      | some e' =>
        obtain ⟨he', he2'⟩ := (hr' e').1 rfl
        obtain ⟨a1, a2⟩ := first_iff hf hv he he2
        obtain ⟨b1, b2⟩ := first_iff hf' hv' he' he2'
        have heq : (start e.1 : I) = start e'.1 := le_antisymm (a2 _ (by rw [b1]; simp)) (b2 _ (by rw [a1]; simp))
        rw [heq, b1] at a1
        exact ⟨heq, (Option.some.inj a1).symm⟩
  | lastKeyValue =>
    obtain ⟨r, hr, -, rfl⟩ := hs
    obtain ⟨r', hr', -, rfl⟩ := hs'
    cases r with
    | none =>
      cases r' with
      | none => exact rfl
      | some e' =>
        by_contra
        refine absurd ((hr' e').1 rfl).1 (hempty.1 (fun e he => ?_) e')
        obtain ⟨d, hd, hd2⟩ := exists_last h he
        exact nomatch (hr d).2 ⟨hd, hd2⟩
    | some e =>
      obtain ⟨he, he2⟩ := (hr e).1 rfl
      cases r' with
      | none =>
        by_contra
        refine absurd he (hempty.2 (fun x hx => ?_) e)
        obtain ⟨d, hd, hd2⟩ := exists_last h' hx
        exact nomatch (hr' d).2 ⟨hd, hd2⟩
      | some e' =>
        obtain ⟨he', he2'⟩ := (hr' e').1 rfl
        obtain ⟨a1, a2⟩ := last_iff hf hv he he2
        obtain ⟨b1, b2⟩ := last_iff hf' hv' he' he2'
        have heq : (stop e.1 : I) = stop e'.1 := le_antisymm (b2 _ (by rw [a1]; simp)) (a2 _ (by rw [b1]; simp))
        rw [heq, b1] at a1
        exact ⟨heq, (Option.some.inj a1).symm⟩
  | getKeyValueAtPoint p =>
    obtain ⟨r, hr, hg, -, rfl⟩ := hs
    obtain ⟨r', hr', hg', -, rfl⟩ := hs'
    cases r with
    | ok e =>
      obtain ⟨he, hp⟩ := (hr e).1 rfl
      obtain ⟨d, hd, hpd, hv⟩ := (hpts p e.2).1 ⟨e, he, hp, rfl⟩
      obtain rfl := (hr' d).2 ⟨hd, hpd⟩
      exact hv.symm
    | error g =>
      cases r' with
      | ok e =>
        obtain ⟨he, hp⟩ := (hr' e).1 rfl
        obtain ⟨d, hd, hpd, hv⟩ := (hpts p e.2).2 ⟨e, he, hp, rfl⟩
        exact nomatch (hr d).2 ⟨hd, hpd⟩
      | error g' =>
        obtain ⟨i, rfl, hi, hpi⟩ := hg g rfl
        obtain ⟨j, rfl, hj, hpj⟩ := hg' g' rfl
        rw [MaximalRun.unique ((hrun i).1 hi) hj hpi hpj]
        exact rfl

/-- the same value at every point, for the specification -/
theorem holds_of_same {m m' : NoditMap K V} (h : WF m.iter) (h' : WF m'.iter)
    (hm : ∀ p : I, m.getAtPoint p = m'.getAtPoint p) : ∃ f : I → Option V, Holds m.entrySet f ∧ Holds m'.entrySet f := by
  obtain ⟨f, hf⟩ := exists_holds h
  refine ⟨f, hf, fun p v => ?_⟩
  obtain ⟨r, a1, a2⟩ := NoditMap.spec_getAtPoint h p
  obtain ⟨r', b1, b2⟩ := NoditMap.spec_getAtPoint h' p
  have : r = r' := by have := hm p; rw [a1, b1] at this; exact Except.ok.inj this
  rw [hf, ← a2, this, b2]

theorem same_of_holds {m m' : NoditMap K V} (h : WF m.iter) (h' : WF m'.iter) {f : I → Option V} (hf : Holds m.entrySet f)
    (hf' : Holds m'.entrySet f) (p : I) : m.getAtPoint p = m'.getAtPoint p := by
  obtain ⟨r, a1, a2⟩ := NoditMap.spec_getAtPoint h p
  obtain ⟨r', b1, b2⟩ := NoditMap.spec_getAtPoint h' p
  rw [a1, b1, option_unique (fun v => (a2 v).trans (hf p v).symm) (fun v => (b2 v).trans (hf' p v).symm)]

theorem holds_merge {S S' : Set (K × V)} {f : I → Option V} (hf : Holds S f) (hV : ∀ v w : V, v = w) {C : K × V → Prop} {k r : K} {v : V}
    (hr : MergedKey k {e | e ∈ S ∧ C e} r) (hS : S' = {e | e ∈ S ∧ ¬ C e} ∪ {(r, v)}) [∀ p : I, Decidable (Mem p k)] :
    Holds S' (fun p => if Mem p k then some v else f p) := by
  intro p w
  subst hS
  obtain rfl := hV v w
  beta_reduce
  constructor
  · intro hp
    by_cases hpk : Mem p k
    · exact ⟨(r, v), Or.inr rfl, (hr.1 p).2 (Or.inl hpk), rfl⟩
    · rw [if_neg hpk] at hp
      obtain ⟨e, he, hpe, hv⟩ := (hf p v).1 hp
      by_cases hC : C e
      · exact ⟨(r, v), Or.inr rfl, (hr.1 p).2 (Or.inr ⟨e, ⟨he, hC⟩, hpe⟩), rfl⟩
      · exact ⟨e, Or.inl ⟨he, hC⟩, hpe, hv⟩
  · rintro ⟨e, ⟨he, -⟩ | rfl, hpe, hv⟩
    · split_ifs
      · rfl
      · exact (hf p v).2 ⟨e, he, hpe, hv⟩
    · split_ifs with hpk
      · rfl
      · rcases (hr.1 p).1 hpe with h | ⟨e, ⟨he, -⟩, hpe⟩
        · exact absurd h hpk
        · exact (hf p v).2 ⟨e, he, hpe, hV _ _⟩

open Classical in
/-- the call does the same at the points of both -/
theorem holds_onPoints [BEq V] [LawfulBEq V] {S₁ S₂ S₁' S₂' : Set (K × V)} {f : I → Option V} (hf₁ : Holds S₁ f) (hf₂ : Holds S₂ f)
    {op : Op I K V} (hop : op.OnPoints) (hb : ¬ op.Bad) {o₁ o₂ : Out K V} (h₁ : SpecOp S₁ op S₁' o₁) (h₂ : SpecOp S₂ op S₂' o₂) :
    ∃ f', Holds S₁' f' ∧ Holds S₂' f' := by
  rcases hop with hop | ⟨hV, k, v, rfl | rfl | rfl⟩
  · exact ⟨_, holds_pointStep hb hop h₁ hf₁, holds_pointStep hb hop h₂ hf₂⟩
  · by_cases hc : ∃ e ∈ S₁, Overlap e.1 k
    · obtain ⟨rfl, -⟩ := h₁.1 hc
      obtain ⟨rfl, -⟩ := h₂.1 ((some_overlap_iff hf₂ k).2 ((some_overlap_iff hf₁ k).1 hc))
      exact ⟨f, hf₁, hf₂⟩
    · obtain ⟨r₁, a₁, b₁, -⟩ := h₁.2 hc
      obtain ⟨r₂, a₂, b₂, -⟩ := h₂.2 (fun hc' => hc ((some_overlap_iff hf₁ k).2 ((some_overlap_iff hf₂ k).1 hc')))
      exact ⟨_, holds_merge hf₁ hV a₁ b₁, holds_merge hf₂ hV a₂ b₂⟩
  · obtain ⟨r₁, a₁, b₁, -⟩ := h₁
    obtain ⟨r₂, a₂, b₂, -⟩ := h₂
    exact ⟨_, holds_merge hf₁ hV a₁ b₁, holds_merge hf₂ hV a₂ b₂⟩
  · obtain ⟨r₁, a₁, b₁, -⟩ := h₁
    obtain ⟨r₂, a₂, b₂, -⟩ := h₂
    exact ⟨_, holds_merge hf₁ hV a₁ b₁, holds_merge hf₂ hV a₂ b₂⟩

theorem division [BEq V] [LawfulBEq V] {m m' : NoditMap K V} (h : WF m.iter) (h' : WF m'.iter)
    (hm : ∀ p : I, m.getAtPoint p = m'.getAtPoint p) (ops : List (Op I K V)) (hops : ∀ op ∈ ops, op.OnPoints) :
    (∀ p : I, (m.run ops).1.getAtPoint p = (m'.run ops).1.getAtPoint p) ∧
    (m.run ops).2.length = ops.length ∧ (m'.run ops).2.length = ops.length ∧
    ∀ (i : Nat) (op : Op I K V) (o o' : Res (Out K V)), ops[i]? = some op → (m.run ops).2[i]? = some o → (m'.run ops).2[i]? = some o' →
      (o = .error .invalidInterval ∧ o' = .error .invalidInterval) ∨
      ∃ r r', o = .ok r ∧ o' = .ok r' ∧ op.SameResult r r' := by
  obtain ⟨f, hf, hf'⟩ := holds_of_same h h' hm
  clear hm
  induction ops generalizing m m' f with
  | nil => exact ⟨fun p => same_of_holds h h' hf hf' p, rfl, rfl, fun i op o o' hi => by simp at hi⟩
  | cons op ops ih =>
    have hops' : ∀ op ∈ ops, op.OnPoints := fun x hx => hops x (by simp [hx])
    have hop : op.OnPoints := hops op (by simp)
    rcases NoditMap.step_refines h op with ⟨hb, hs⟩ | ⟨hb, m1, o1, hs, w1, hsp⟩
    · rcases NoditMap.step_refines h' op with ⟨-, hs'⟩ | ⟨hb', -⟩
      · obtain ⟨a, b, c, d⟩ := ih h h' hops' f hf hf'
        simp only [NoditMap.run, hs, hs']
        refine ⟨a, by simp [b], by simp [c], fun i op o o' hi ho ho' => ?_⟩
        cases i with
        | zero =>
          simp only [List.getElem?_cons_zero, Option.some.injEq] at ho ho'
          exact Or.inl ⟨ho.symm, ho'.symm⟩
        | succ i => exact d i op o o' hi ho ho'
      · exact absurd hb hb'
    · rcases NoditMap.step_refines h' op with ⟨hb', -⟩ | ⟨-, m1', o1', hs', w1', hsp'⟩
      · exact absurd hb' hb
      · obtain ⟨f', hf1, hf1'⟩ := holds_onPoints hf hf' hop hb hsp hsp'
        obtain ⟨a, b, c, d⟩ := ih w1 w1' hops' f' hf1 hf1'
        simp only [NoditMap.run, hs, hs']
        refine ⟨a, by simp [b], by simp [c], fun i op' o o' hi ho ho' => ?_⟩
        cases i with
        | zero =>
          simp only [List.getElem?_cons_zero, Option.some.injEq] at hi ho ho'
          subst hi ho ho'
          exact Or.inr ⟨_, _, rfl, rfl, sameResult h h' hf hf' hop hb hsp hsp'⟩
        | succ i => exact d i op' o o' hi ho ho'

/-- **C118**: let two maps have the same value at every point (their entries may be divided differently). However both are used
in the same way with `insert_strict`, `insert_overwrite`, `insert_merge_touching_if_values_equal`, `cut` and queries, they have
the same value at every point again; the calls panic, accept and refuse alike in both; and what they return is the same except
for where entries begin and end (`SameResult`). -/
theorem C118_division [BEq V] [LawfulBEq V] {m m' : NoditMap K V} (h : WF m.iter) (h' : WF m'.iter)
    (hm : ∀ p : I, m.getAtPoint p = m'.getAtPoint p) (ops : List (Op I K V)) (hops : ∀ op ∈ ops, op.Pointwise) :
    (∀ p : I, (m.run ops).1.getAtPoint p = (m'.run ops).1.getAtPoint p) ∧
    (m.run ops).2.length = ops.length ∧ (m'.run ops).2.length = ops.length ∧
    ∀ (i : Nat) (op : Op I K V) (o o' : Res (Out K V)), ops[i]? = some op → (m.run ops).2[i]? = some o → (m'.run ops).2[i]? = some o' →
      (o = .error .invalidInterval ∧ o' = .error .invalidInterval) ∨
      ∃ r r', o = .ok r ∧ o' = .ok r' ∧ op.SameResult r r' :=
  division h h' hm ops fun op hop => Or.inl (hops op hop)

theorem two_wf {V : Type} (v : V) : WF (I := Demo.U8) [(Demo.iv 1 2, v), (Demo.iv 3 4, v)] := by
  refine ⟨?_, ?_⟩
  · intro e he
    rcases List.mem_cons.1 he with rfl | he
    · exact valid_iff.2 (show Demo.u8 1 ≤ Demo.u8 2 by decide)
    · rw [List.mem_singleton.1 he]
      exact valid_iff.2 (show Demo.u8 3 ≤ Demo.u8 4 by decide)
  · refine List.pairwise_cons.2 ⟨fun d hd => ?_, List.pairwise_singleton _ _⟩
    rw [List.mem_singleton.1 hd]
    exact fun p q hp hq => lt_of_le_of_lt hp.2 (lt_of_lt_of_le (show Demo.u8 2 < Demo.u8 3 by decide) hq.1)

theorem one_wf {V : Type} (v : V) : WF (I := Demo.U8) [(Demo.iv 1 4, v)] := by
  refine ⟨fun e he => ?_, List.pairwise_singleton _ _⟩
  rw [List.mem_singleton.1 he]
  exact valid_iff.2 (show Demo.u8 1 ≤ Demo.u8 4 by decide)

theorem two_one_same {V : Type} (v : V) (p : Demo.U8) :
    NoditMap.getAtPoint ⟨[(Demo.iv 1 2, v), (Demo.iv 3 4, v)]⟩ p = NoditMap.getAtPoint ⟨[(Demo.iv 1 4, v)]⟩ p := by
  obtain ⟨f, hf⟩ := exists_holds (I := Demo.U8) (m := ⟨[(Demo.iv 1 2, v), (Demo.iv 3 4, v)]⟩) (two_wf v)
  refine same_of_holds (two_wf v) (one_wf v) hf (fun p w => ?_) p
  rw [hf]
  have hp : Mem p (Demo.iv 1 4) ↔ Mem p (Demo.iv 1 2) ∨ Mem p (Demo.iv 3 4) := by
    show ((1 : Int) ≤ p.val ∧ p.val ≤ 4) ↔ ((1 : Int) ≤ p.val ∧ p.val ≤ 2) ∨ ((3 : Int) ≤ p.val ∧ p.val ≤ 4)
    omega
  constructor
  · rintro ⟨e, he, hpe, rfl⟩
    rcases List.mem_cons.1 (show e ∈ [(Demo.iv 1 2, v), (Demo.iv 3 4, v)] from he) with rfl | he
    · exact ⟨_, List.mem_singleton.2 rfl, hp.2 (Or.inl hpe), rfl⟩
    · rw [List.mem_singleton.1 he] at hpe ⊢
      exact ⟨_, List.mem_singleton.2 rfl, hp.2 (Or.inr hpe), rfl⟩
  · rintro ⟨e, he, hpe, rfl⟩
    rw [List.mem_singleton.1 (show e ∈ [(Demo.iv 1 4, v)] from he)] at hpe ⊢
    rcases hp.1 hpe with h | h
    · exact ⟨(Demo.iv 1 2, v), by simp [NoditMap.entrySet, NoditMap.iter], h, rfl⟩
    · exact ⟨(Demo.iv 3 4, v), by simp [NoditMap.entrySet, NoditMap.iter], h, rfl⟩

/-- **C118**, the other calls do see where entries begin and end: two maps with the same value at every point, and for each kind
of call left out above one after which they differ. -/
theorem C118_division_seen :
    let m : NoditMap (Interval Demo.U8) Nat := ⟨[(Demo.iv 1 2, 7), (Demo.iv 3 4, 7)]⟩
    let m' : NoditMap (Interval Demo.U8) Nat := ⟨[(Demo.iv 1 4, 7)]⟩
    WF (I := Demo.U8) m.iter ∧ WF (I := Demo.U8) m'.iter ∧ (∀ p : Demo.U8, m.getAtPoint p = m'.getAtPoint p) ∧
    ∀ op ∈ ([.removeOverlapping (Demo.iv 4 4), .insertMergeTouching (Demo.iv 5 6) 8, .insertMergeOverlapping (Demo.iv 4 6) 8,
        .insertMergeTouchingOrOverlapping (Demo.iv 5 6) 8, .overlappingMut (Demo.iv 4 4) (fun _ _ => 8),
        .getAtPointMut (Demo.u8 4) (fun _ => 8), .iterMut (fun k v => if k.start = Demo.u8 3 then 8 else v)] : List (Op Demo.U8 _ _)),
      ∃ p : Demo.U8, (m.run [op]).1.getAtPoint p ≠ (m'.run [op]).1.getAtPoint p := by
  intro m m'
  refine ⟨two_wf 7, one_wf 7, fun p => two_one_same 7 p, fun op hop => ?_⟩
  simp only [List.mem_cons, List.not_mem_nil, or_false] at hop
  rcases hop with rfl | rfl | rfl | rfl | rfl | rfl | rfl <;>
    first | exact ⟨Demo.u8 1, by decide⟩ | exact ⟨Demo.u8 3, by decide⟩

end

/-! ## `NoditSet` -/

namespace Spec
variable {I K : Type} [PointType I] [IntervalType I K]

/-- What a client can still tell from the results of the same call to two sets with the same points. A specification, models no
lines of `/repo`. -/
def SetCall.SameResult : SetCall I K → SetOut K → SetOut K → Prop
  | .insertOverwrite _, .keys l, .keys l' | .cut _, .keys l, .keys l' | .iter, .keys l, .keys l' =>
    ∀ p : I, (∃ k ∈ l, Mem p k) ↔ ∃ k ∈ l', Mem p k
  | .overlapping q, .keys l, .keys l' => ∀ p : I, Mem p q → ((∃ k ∈ l, Mem p k) ↔ ∃ k ∈ l', Mem p k)
  | .insertMergeTouching _, .merge (.ok _), .merge (.ok _)
  | .insertMergeOverlapping _, .key _, .key _ | .insertMergeTouchingOrOverlapping _, .key _, .key _ => True
  | .getAtPoint _, .lookup (.ok _), .lookup (.ok _) => True
  | .first, .optKey (some k), .optKey (some k') => (start k : I) = start k'
  | .last, .optKey (some k), .optKey (some k') => (stop k : I) = stop k'
  | .len, .nat n, .nat n' => n = 0 ↔ n' = 0
  | _, o, o' => o = o'
end Spec

section
variable {I K : Type} [PointType I] [IntervalType I K] [LawfulPoint I] [LawfulInterval I K]

theorem SetCall.SameResult.refl (op : SetCall I K) (o : SetOut K) : op.SameResult o o := by
  unfold SetCall.SameResult
  split <;> simp_all

theorem sameOn_keys {P : I → Prop} {l l' : List (K × Unit)} (h : SameOn P l l') (p : I) (hp : P p) :
    (∃ k ∈ l.map Prod.fst, Mem p k) ↔ ∃ k ∈ l'.map Prod.fst, Mem p k := by
  have := h p hp ()
  constructor
  · rintro ⟨k, hk, hpk⟩
    obtain ⟨e, he, rfl⟩ := List.mem_map.1 hk
    obtain ⟨d, hd, hpd, -⟩ := this.1 ⟨e, he, hpk, rfl⟩
    exact ⟨d.1, List.mem_map.2 ⟨d, hd, rfl⟩, hpd⟩
  · rintro ⟨k, hk, hpk⟩
    obtain ⟨e, he, rfl⟩ := List.mem_map.1 hk
    obtain ⟨d, hd, hpd, -⟩ := this.2 ⟨e, he, hpk, rfl⟩
    exact ⟨d.1, List.mem_map.2 ⟨d, hd, rfl⟩, hpd⟩

theorem sameResult_toMap {op : SetCall I K} {r r' : Out K Unit} (h : op.toMap.SameResult r r') :
    op.SameResult (SetOut.ofMap r) (SetOut.ofMap r') := by
  by_cases hrr : r = r'
  · subst hrr
    exact SetCall.SameResult.refl _ _
  cases op with
  | insertOverwrite k | cut q | iter =>
    cases r <;> cases r' <;> first | exact absurd h hrr | exact fun p => sameOn_keys h p trivial
  | overlapping q =>
    cases r <;> cases r' <;> first | exact absurd h hrr | exact fun p hp => sameOn_keys h p hp
  | insertMergeOverlapping k | insertMergeTouchingOrOverlapping k =>
    cases r <;> cases r' <;> first | exact absurd h hrr | exact trivial
  | insertMergeTouching k =>
    rcases r with _ | _ | _ | _ | _ | _ | _ | _ | _ | (_ | _) | _ <;> rcases r' with _ | _ | _ | _ | _ | _ | _ | _ | _ | (_ | _) | _ <;>
      first | exact absurd h hrr | exact trivial
  | getAtPoint p =>
    rcases r with _ | _ | _ | _ | _ | _ | _ | (_ | _) | _ | _ | _ <;> rcases r' with _ | _ | _ | _ | _ | _ | _ | (_ | _) | _ | _ | _ <;>
      first | exact absurd h hrr | exact trivial
  | first | last =>
    rcases r with _ | _ | _ | _ | _ | _ | (_ | _) | _ | _ | _ | _ <;> rcases r' with _ | _ | _ | _ | _ | _ | (_ | _) | _ | _ | _ | _ <;>
      first | exact absurd h hrr | exact h.1
  | len =>
    cases r <;> cases r' <;> first | exact absurd h hrr | exact h
  | _ => exact absurd h hrr

theorem contains_iff {s : NoditSet K} (h : Ascending s.iter) (p : I) : s.containsPoint p = .ok (decide (s.inner.getAtPoint p = .ok (some ()))) := by
  obtain ⟨r, a1, a2⟩ := NoditMap.spec_getAtPoint (NoditSet.wf_iff.2 h : WF s.inner.iter) p
  rw [a1]
  revert a1
  simp only [NoditSet.containsPoint, NoditMap.containsPoint, NoditMap.getAtPoint, bind, Except.bind, pure, Except.pure]
  generalize (s.inner.getKeyValueAtPoint p : Res (Except K (K × Unit))) = y
  rcases y with _ | (_ | _) <;> simp
  · rintro rfl; simp
  · rintro rfl; simp

/-- **C118** for `NoditSet`: let two sets contain the same points (their intervals may be divided differently). However both are used
in the same way with any calls but `remove_overlapping`, they contain the same points again; the calls panic, accept and refuse
alike in both; and what they return is the same except for where intervals begin and end (`SameResult`). -/
theorem C118_set_division {s s' : NoditSet K} (h : Ascending s.iter) (h' : Ascending s'.iter)
    (hs : ∀ p : I, s.containsPoint p = s'.containsPoint p) (ops : List (SetCall I K)) (hops : ∀ op ∈ ops, ∀ q, op ≠ .removeOverlapping q) :
    (∀ p : I, (s.runCalls ops).1.containsPoint p = (s'.runCalls ops).1.containsPoint p) ∧
    (s.runCalls ops).2.length = ops.length ∧ (s'.runCalls ops).2.length = ops.length ∧
    ∀ (i : Nat) (op : SetCall I K) (o o' : Res (SetOut K)), ops[i]? = some op → (s.runCalls ops).2[i]? = some o →
      (s'.runCalls ops).2[i]? = some o' →
      (o = .error .invalidInterval ∧ o' = .error .invalidInterval) ∨
      ∃ r r', o = .ok r ∧ o' = .ok r' ∧ op.SameResult r r' := by
  have hu : ∀ {s s' : NoditSet K}, Ascending s.iter → Ascending s'.iter → ∀ p : I,
      (s.containsPoint p = s'.containsPoint p ↔ s.inner.getAtPoint p = s'.inner.getAtPoint p) := by
    intro s s' h h' p
    rw [contains_iff h, contains_iff h']
    obtain ⟨r, a1, -⟩ := NoditMap.spec_getAtPoint (NoditSet.wf_iff.2 h : WF s.inner.iter) p
    obtain ⟨r', b1, -⟩ := NoditMap.spec_getAtPoint (NoditSet.wf_iff.2 h' : WF s'.inner.iter) p
    rw [a1, b1]
    rcases r with _ | ⟨⟨⟩⟩ <;> rcases r' with _ | ⟨⟨⟩⟩ <;> simp
  obtain ⟨a, b, c, d⟩ := division (NoditSet.wf_iff.2 h) (NoditSet.wf_iff.2 h') (fun p => (hu h h' p).1 (hs p)) (ops.map SetCall.toMap) (by
    intro op hop
    obtain ⟨x, hx, rfl⟩ := List.mem_map.1 hop
    have := hops x hx
    cases x with
    | removeOverlapping q => exact absurd rfl (this q)
    | insertMergeTouching k => exact Or.inr ⟨fun _ _ => rfl, k, (), Or.inl rfl⟩
    | insertMergeOverlapping k => exact Or.inr ⟨fun _ _ => rfl, k, (), Or.inr (Or.inl rfl)⟩
    | insertMergeTouchingOrOverlapping k => exact Or.inr ⟨fun _ _ => rfl, k, (), Or.inr (Or.inr rfl)⟩
    | _ => exact Or.inl trivial)
  rw [runCalls_eq, runCalls_eq]
  refine ⟨fun p => (hu ?_ ?_ p).2 (a p), by simpa using b, by simpa using c, ?_⟩
  · exact NoditSet.wf_iff.1 (run_refines _ (NoditSet.wf_iff.2 h)).1
  · exact NoditSet.wf_iff.1 (run_refines _ (NoditSet.wf_iff.2 h')).1
  · intro i op o o' hi ho ho'
    simp only [List.getElem?_map, Option.map_eq_some_iff] at ho ho'
    obtain ⟨x, hx, rfl⟩ := ho
    obtain ⟨x', hx', rfl⟩ := ho'
    rcases d i op.toMap x x' (by simp [hi]) hx hx' with ⟨rfl, rfl⟩ | ⟨r, r', rfl, rfl, hr⟩
    · exact Or.inl ⟨rfl, rfl⟩
    · exact Or.inr ⟨_, _, rfl, rfl, sameResult_toMap hr⟩

/-- **C118** for `NoditSet`: `remove_overlapping` does see where intervals begin and end. -/
theorem C118_set_division_seen :
    let s : NoditSet (Interval Demo.U8) := ⟨⟨[(Demo.iv 1 2, ()), (Demo.iv 3 4, ())]⟩⟩
    let s' : NoditSet (Interval Demo.U8) := ⟨⟨[(Demo.iv 1 4, ())]⟩⟩
    Ascending (I := Demo.U8) s.iter ∧ Ascending (I := Demo.U8) s'.iter ∧ (∀ p : Demo.U8, s.containsPoint p = s'.containsPoint p) ∧
    ∃ p : Demo.U8, (s.runCalls [.removeOverlapping (Demo.iv 4 4)]).1.containsPoint p ≠
      (s'.runCalls [.removeOverlapping (Demo.iv 4 4)]).1.containsPoint p := by
  intro s s'
  have h : Ascending (I := Demo.U8) s.iter := NoditSet.wf_iff.1 (two_wf ())
  have h' : Ascending (I := Demo.U8) s'.iter := NoditSet.wf_iff.1 (one_wf ())
  refine ⟨h, h', fun p => ?_, Demo.u8 1, by decide⟩
  rw [contains_iff h, contains_iff h', show s.inner.getAtPoint p = s'.inner.getAtPoint p from two_one_same () p]
end
end Nodit
