import Verif.Props.MapProps
/-!
# C20 (determinism of the reference machine), C21 (histories as partial functions)
-/
set_option linter.unusedSectionVars false
namespace Nodit
open Spec PointType NoditMap

variable {I K Q V : Type} [PointType I] [IntervalType I K] [IntervalType I Q]
  [LawfulPoint I] [LawfulInterval I K]

omit [LawfulInterval I K] in
theorem Lists.unique {l l' : List (K × V)} {S : Set (K × V)} (h : Lists l S) (h' : Lists l' S) : l = l' :=
  (wf_iff_chain.1 h.1).ext (wf_iff_chain.1 h'.1) (fun e => (h.2 e).trans (h'.2 e).symm)

omit [LawfulInterval I K] in
theorem ListsIntervals.unique {l l' : List K} {P : Interval I → Prop} (h : ListsIntervals l P)
    (h' : ListsIntervals l' P) : l = l' :=
  ChainK.ext (ascending_iff.1 h.1) (ascending_iff.1 h'.1) (fun e => (h.2 e).trans (h'.2 e).symm)

omit [LawfulInterval I K] in
theorem interval_eq_of_mem_iff {i j : Interval I} (hi : Valid i) (h : ∀ p, Mem p i ↔ Mem p j) : i = j := by
  have h1 := valid_iff.1 hi
  have hs := (h i.start).1 ⟨le_refl _, h1⟩
  have he := (h i.stop).1 ⟨h1, le_refl _⟩
  have h2 : j.start ≤ j.stop := le_trans hs.1 hs.2
  have hs' := (h j.start).2 ⟨le_refl _, h2⟩
  have he' := (h j.stop).2 ⟨h2, le_refl _⟩
  cases i; cases j
  simp only [Mem, start, stop] at *
  rw [Interval.mk.injEq]
  constructor <;> order

theorem MergedKey.unique {k r r' : K} {T : Set (K × V)} (hk : Valid k) (h : MergedKey k T r) (h' : MergedKey k T r') :
    r = r' := by
  by_cases hT : ∃ e ∈ T, ¬ StrictlyInside e.1 k
  · obtain ⟨i, rfl⟩ := h.2.2 hT
    obtain ⟨j, rfl⟩ := h'.2.2 hT
    congr 1
    obtain ⟨p, hp⟩ := hk
    refine interval_eq_of_mem_iff ⟨p, mem_ofInterval.1 ((h.1 p).2 (Or.inl hp))⟩ fun p => ?_
    rw [← mem_ofInterval (K := K), h.1, ← h'.1, mem_ofInterval]
  · have hT' : ∀ e ∈ T, StrictlyInside e.1 k := fun e he => by
      by_contra hc; exact hT ⟨e, he, hc⟩
    rw [h.2.1 hT', h'.2.1 hT']

omit [LawfulInterval I K] in
theorem MaximalRun.unique {P : I → Prop} {i j : Interval I} (hi : MaximalRun P i) (hj : MaximalRun P j) {p : I}
    (hpi : Mem p i) (hpj : Mem p j) : i = j :=
  interval_eq_of_mem_iff hi.1 fun x => ⟨hj.2.2 i hi.2.1 ⟨p, hpj, hpi⟩ x, hi.2.2 j hj.2.1 ⟨p, hpi, hpj⟩ x⟩

omit [LawfulInterval I K] in
theorem bool_unique {b b' : Bool} {P : Prop} (h : b = true ↔ P) (h' : b' = true ↔ P) : b = b' := by
  cases b <;> cases b' <;> simp_all

omit [LawfulInterval I K] in
theorem option_unique {α : Type} {r r' : Option α} {P : α → Prop} (h : ∀ v, r = some v ↔ P v)
    (h' : ∀ v, r' = some v ↔ P v) : r = r' :=
  Option.ext fun v => (h v).trans (h' v).symm

/-- **C20**: the reference machine leaves no freedom - a call's effect and result are determined by the set of
entries. -/
theorem C20_reference_machine_deterministic [BEq V] {S S₁ S₂ : Set (K × V)} {op : Op I K V} {o₁ o₂ : Res (Out K V)}
    (h₁ : SpecStep S op S₁ o₁) (h₂ : SpecStep S op S₂ o₂) : S₁ = S₂ ∧ o₁ = o₂ := by
  rcases h₁ with ⟨hb, rfl, rfl⟩ | ⟨hb, o1, rfl, h₁⟩ <;> rcases h₂ with ⟨hb', rfl, rfl⟩ | ⟨hb', o2, rfl, h₂⟩
  · exact ⟨rfl, rfl⟩
  · exact absurd hb hb'
  · exact absurd hb' hb
  · cases op with
    | insertStrict k v =>
      by_cases hc : ∃ e ∈ S, Overlap e.1 k
      · obtain ⟨rfl, rfl⟩ := h₁.1 hc; obtain ⟨rfl, rfl⟩ := h₂.1 hc; exact ⟨rfl, rfl⟩
      · obtain ⟨rfl, rfl⟩ := h₁.2 hc; obtain ⟨rfl, rfl⟩ := h₂.2 hc; exact ⟨rfl, rfl⟩
    | insertMergeTouching k v =>
      have hk : Valid k := not_not.1 hb
      by_cases hc : ∃ e ∈ S, Overlap e.1 k
      · obtain ⟨rfl, rfl⟩ := h₁.1 hc; obtain ⟨rfl, rfl⟩ := h₂.1 hc; exact ⟨rfl, rfl⟩
      · obtain ⟨r, hr, rfl, rfl⟩ := h₁.2 hc; obtain ⟨r', hr', rfl, rfl⟩ := h₂.2 hc
        cases MergedKey.unique hk hr hr'; exact ⟨rfl, rfl⟩
    | insertMergeTouchingIfValuesEqual k v =>
      have hk : Valid k := not_not.1 hb
      by_cases hc : ∃ e ∈ S, Overlap e.1 k
      · obtain ⟨rfl, rfl⟩ := h₁.1 hc; obtain ⟨rfl, rfl⟩ := h₂.1 hc; exact ⟨rfl, rfl⟩
      · obtain ⟨r, hr, rfl, rfl⟩ := h₁.2 hc; obtain ⟨r', hr', rfl, rfl⟩ := h₂.2 hc
        cases MergedKey.unique hk hr hr'; exact ⟨rfl, rfl⟩
    | insertMergeOverlapping k v | insertMergeTouchingOrOverlapping k v =>
      have hk : Valid k := not_not.1 hb
      obtain ⟨r, hr, rfl, rfl⟩ := h₁; obtain ⟨r', hr', rfl, rfl⟩ := h₂
      cases MergedKey.unique hk hr hr'; exact ⟨rfl, rfl⟩
    | insertOverwrite k v | cut q | removeOverlapping q | overlapping q | iter | len =>
      obtain ⟨l, hl, rfl, rfl⟩ := h₁; obtain ⟨l', hl', rfl, rfl⟩ := h₂
      cases Lists.unique hl hl'; exact ⟨rfl, rfl⟩
    | overlaps q | containsInterval q | containsPoint p | isEmpty =>
      obtain ⟨b, hl, rfl, rfl⟩ := h₁; obtain ⟨b', hl', rfl, rfl⟩ := h₂
      cases bool_unique hl hl'; exact ⟨rfl, rfl⟩
    | gapsUntrimmed q | gapsTrimmed q =>
      obtain ⟨l, hl, rfl, rfl⟩ := h₁; obtain ⟨l', hl', rfl, rfl⟩ := h₂
      cases ListsIntervals.unique hl hl'; exact ⟨rfl, rfl⟩
    | overlappingMut q f | iterMut f =>
      obtain ⟨rfl, rfl⟩ := h₁; obtain ⟨rfl, rfl⟩ := h₂; exact ⟨rfl, rfl⟩
    | getAtPoint p | getAtPointMut p f | firstKeyValue | lastKeyValue =>
      obtain ⟨l, hl, rfl, rfl⟩ := h₁; obtain ⟨l', hl', rfl, rfl⟩ := h₂
      cases option_unique hl hl'; exact ⟨rfl, rfl⟩
    | getKeyValueAtPoint p =>
      obtain ⟨r, hr, hg, rfl, rfl⟩ := h₁; obtain ⟨r', hr', hg', rfl, rfl⟩ := h₂
      refine ⟨rfl, ?_⟩
      cases r with
      | ok e => rw [(hr' e).2 ((hr e).1 rfl)]
      | error g =>
        cases r' with
        | ok e => have := (hr e).2 ((hr' e).1 rfl); cases this
        | error g' =>
          obtain ⟨i, rfl, hi, hpi⟩ := hg g rfl
          obtain ⟨j, rfl, hj, hpj⟩ := hg' g' rfl
          rw [MaximalRun.unique hi hj hpi hpj]

/-- **C20**: so a whole history of the reference machine has one outcome, the model's. -/
theorem C20_reference_history_unique [BEq V] {ops : List (Op I K V)} {S' : Set (K × V)} {os : List (Res (Out K V))}
    (h : SpecRun (∅ : Set (K × V)) ops S' os) :
    S' = ((new : NoditMap K V).run ops).1.entrySet ∧ os = ((new : NoditMap K V).run ops).2 := by
  have hdet : ∀ {ops : List (Op I K V)} {S S₁ S₂ : Set (K × V)} {o₁ o₂ : List (Res (Out K V))},
      SpecRun S ops S₁ o₁ → SpecRun S ops S₂ o₂ → S₁ = S₂ ∧ o₁ = o₂ := by
    intro ops S S₁ S₂ o₁ o₂ h₁
    induction h₁ generalizing S₂ o₂ with
    | nil S => intro h₂; cases h₂; exact ⟨rfl, rfl⟩
    | cons hs hr ih =>
      intro h₂
      cases h₂ with
      | cons hs' hr' =>
        obtain ⟨rfl, rfl⟩ := C20_reference_machine_deterministic hs hs'
        obtain ⟨rfl, rfl⟩ := ih hr'
        exact ⟨rfl, rfl⟩
  exact hdet h (C20_refines_set_of_entries ops)

/-- the entries hold exactly the values of the partial function -/
def Holds (S : Set (K × V)) (f : I → Option V) : Prop := ∀ p v, f p = some v ↔ ∃ e ∈ S, Mem p e.1 ∧ e.2 = v

theorem holds_pointStep [BEq V] [LawfulBEq V] {S S' : Set (K × V)} {f : I → Option V} {op : Op I K V} {o : Out K V}
    (hb : ¬ op.Bad) (hop : op.Pointwise) (h : SpecOp S op S' o) (hf : Holds S f) : Holds S' (pointStep f op) := by
  have hnone : ∀ {k : K}, (∀ x, Mem x k → f x = none) ↔ ¬ ∃ e ∈ S, Overlap e.1 k := by
    intro k
    constructor
    · rintro h1 ⟨e, he, p, hpe, hpk⟩
      have := (hf p e.2).2 ⟨e, he, hpe, rfl⟩
      rw [h1 p hpk] at this; cases this
    · intro h1 x hx
      cases hfx : f x with
      | none => rfl
      | some v =>
        obtain ⟨e, he, hpe, -⟩ := (hf x v).1 hfx
        exact absurd ⟨e, he, x, hpe, hx⟩ h1
  have hcut : ∀ {Q : Type} [IntervalType I Q] {q : Q}, Valid q → ∀ p v,
      (∃ e ∈ CutRemaining S q, Mem p e.1 ∧ e.2 = v) ↔ ¬ Mem p q ∧ f p = some v := by
    intro Q _ q hq p v
    rw [hf]
    constructor
    · rintro ⟨e, he, hpe, rfl⟩
      rcases he with ⟨he, hno⟩ | ⟨d, hd, ho, i, rfl, hi | hi⟩
      · exact ⟨fun hp => hno ⟨p, hpe, hp⟩, e, he, hpe, rfl⟩
      · have := (hi.2 p).1 (mem_ofInterval.1 hpe)
        exact ⟨fun hp => lt_irrefl _ (this.2 p hp), d, hd, this.1, rfl⟩
      · have := (hi.2 p).1 (mem_ofInterval.1 hpe)
        exact ⟨fun hp => lt_irrefl _ (this.2 p hp), d, hd, this.1, rfl⟩
    · rintro ⟨hp, e, he, hpe, rfl⟩
      by_cases ho : Overlap e.1 q
      · have hq' := valid_iff.1 hq
        rcases lt_or_ge p (start q) with hlt | hge
        · obtain ⟨i, hi⟩ := exists_part_below ⟨p, hpe⟩ hq hpe ((forall_mem_lt hq' p).2 hlt)
          exact ⟨(ofInterval i, e.2), Or.inr ⟨e, he, ho, i, rfl, Or.inl hi⟩,
            mem_ofInterval.2 ((hi.2 p).2 ⟨hpe, (forall_mem_lt hq' p).2 hlt⟩), rfl⟩
        · have hgt : stop q < p := not_le.1 fun hle => hp ⟨hge, hle⟩
          obtain ⟨i, hi⟩ := exists_part_above ⟨p, hpe⟩ hq hpe ((forall_mem_gt hq' p).2 hgt)
          exact ⟨(ofInterval i, e.2), Or.inr ⟨e, he, ho, i, rfl, Or.inr hi⟩,
            mem_ofInterval.2 ((hi.2 p).2 ⟨hpe, (forall_mem_gt hq' p).2 hgt⟩), rfl⟩
      · exact ⟨e, Or.inl ⟨he, ho⟩, hpe, rfl⟩
  cases op with
  | insertMergeTouching _ _ | insertMergeOverlapping _ _ | insertMergeTouchingOrOverlapping _ _
  | removeOverlapping _ | overlappingMut _ _ | getAtPointMut _ _ | iterMut _ => exact hop.elim
  | overlapping q | overlaps q | gapsUntrimmed q | gapsTrimmed q | containsInterval q | getAtPoint p | containsPoint p
  | iter | len | isEmpty | firstKeyValue | lastKeyValue =>
    obtain ⟨_, -, rfl, -⟩ := h; exact hf
  | getKeyValueAtPoint p => obtain ⟨_, -, -, rfl, -⟩ := h; exact hf
  | insertStrict k v =>
    intro p w
    simp only [pointStep]
    by_cases hc : ∃ e ∈ S, Overlap e.1 k
    · obtain ⟨rfl, -⟩ := h.1 hc
      rw [if_neg (fun hh => hnone.1 hh.2 hc)]; exact hf p w
    · obtain ⟨rfl, -⟩ := h.2 hc
      by_cases hp : Mem p k
      · rw [if_pos ⟨hp, hnone.2 hc⟩]
        constructor
        · rintro ⟨⟩; exact ⟨(k, v), Or.inr rfl, hp, rfl⟩
        · rintro ⟨e, he | rfl, hpe, rfl⟩
          · exact absurd ⟨e, he, p, hpe, hp⟩ hc
          · rfl
      · rw [if_neg (fun hh => hp hh.1), hf]
        constructor
        · rintro ⟨e, he, hh⟩; exact ⟨e, Or.inl he, hh⟩
        · rintro ⟨e, he | rfl, hpe, rfl⟩
          · exact ⟨e, he, hpe, rfl⟩
          · exact absurd hpe hp
  | insertMergeTouchingIfValuesEqual k v =>
    intro p w
    simp only [pointStep]
    by_cases hc : ∃ e ∈ S, Overlap e.1 k
    · obtain ⟨rfl, -⟩ := h.1 hc
      rw [if_neg (fun hh => hnone.1 hh.2 hc)]; exact hf p w
    · obtain ⟨r, hr, rfl, -⟩ := h.2 hc
      by_cases hp : Mem p k
      · rw [if_pos ⟨hp, hnone.2 hc⟩]
        constructor
        · rintro ⟨⟩; exact ⟨(r, v), Or.inr rfl, (hr.1 p).2 (Or.inl hp), rfl⟩
        · rintro ⟨e, he | rfl, hpe, rfl⟩
          · exact absurd ⟨e, he.1, p, hpe, hp⟩ hc
          · rfl
      · rw [if_neg (fun hh => hp hh.1), hf]
        constructor
        · rintro ⟨e, he, hpe, rfl⟩
          by_cases ht : Touch e.1 k ∧ (e.2 == v) = true
          · exact ⟨(r, v), Or.inr rfl, (hr.1 p).2 (Or.inr ⟨e, ⟨he, ht⟩, hpe⟩), (eq_of_beq ht.2).symm⟩
          · exact ⟨e, Or.inl ⟨he, ht⟩, hpe, rfl⟩
        · rintro ⟨e, he | rfl, hpe, rfl⟩
          · exact ⟨e, he.1, hpe, rfl⟩
          · rcases (hr.1 p).1 hpe with hpk | ⟨e, he, hpe'⟩
            · exact absurd hpk hp
            · exact ⟨e, he.1, hpe', eq_of_beq he.2.2⟩
  | insertOverwrite k v =>
    obtain ⟨l, -, rfl, -⟩ := h
    have hk : Valid k := not_not.1 hb
    intro p w
    have h1 := hcut hk p w
    simp only [pointStep]
    by_cases hp : Mem p k
    · rw [if_pos hp]
      constructor
      · rintro ⟨⟩; exact ⟨(k, v), Or.inr rfl, hp, rfl⟩
      · rintro ⟨e, he | rfl, hpe, rfl⟩
        · exact absurd hp (h1.1 ⟨e, he, hpe, rfl⟩).1
        · rfl
    · rw [if_neg hp]
      constructor
      · intro hw
        obtain ⟨e, he, hh⟩ := h1.2 ⟨hp, hw⟩
        exact ⟨e, Or.inl he, hh⟩
      · rintro ⟨e, he | rfl, hpe, rfl⟩
        · exact (h1.1 ⟨e, he, hpe, rfl⟩).2
        · exact absurd hpe hp
  | cut q =>
    obtain ⟨l, -, rfl, -⟩ := h
    have hq : Valid q := not_not.1 hb
    intro p w
    rw [hcut hq p w]
    simp only [pointStep]
    by_cases hp : Mem p q <;> simp [hp]

omit [LawfulInterval I K] in
theorem pointStep_bad {f : I → Option V} {op : Op I K V} (hb : op.Bad) : pointStep f op = f := by
  funext p
  have key : ∀ {Q : Type} [IntervalType I Q] {q : Q}, ¬ Valid q → ¬ Mem p q := fun h hp => h ⟨p, hp⟩
  cases op with
  | insertStrict k v | insertMergeTouchingIfValuesEqual k v =>
    simp only [pointStep]; rw [if_neg (fun h => key hb h.1)]
  | insertOverwrite k v | cut q => simp only [pointStep]; rw [if_neg (key hb)]
  | _ => rfl

theorem run_pointwise [BEq V] [LawfulBEq V] {ops : List (Op I K V)} (hops : ∀ op ∈ ops, op.Pointwise)
    {m : NoditMap K V} (h : WF m.iter) {f : I → Option V} (hf : Holds m.entrySet f) :
    Holds (m.run ops).1.entrySet (ops.foldl pointStep f) := by
  induction ops generalizing m f with
  | nil => exact hf
  | cons op ops ih =>
    have hops' : ∀ op ∈ ops, op.Pointwise := fun o ho => hops o (by simp [ho])
    rcases step_refines h op with ⟨hb, he⟩ | ⟨hb, m', o, ho, hw, hs⟩
    · simp only [run, he, List.foldl_cons]
      exact ih hops' h (by rw [pointStep_bad hb]; exact hf)
    · simp only [run, ho, List.foldl_cons]
      exact ih hops' hw (holds_pointStep hb (hops op (by simp)) hs hf)

/-- **C21**: after any history of strict, overwriting and equal-value-merging inserts, cuts and queries (with valid
or invalid arguments) `get_at_point` and `contains_point` are those of a partial function updated point by point. -/
theorem C21_refines_partial_function [BEq V] [LawfulBEq V] (ops : List (Op I K V)) (hops : ∀ op ∈ ops, op.Pointwise)
    (p : I) :
    ((new : NoditMap K V).run ops).1.getAtPoint p = .ok (ops.foldl pointStep (fun _ => none) p) ∧
    ((new : NoditMap K V).run ops).1.containsPoint p = .ok (ops.foldl pointStep (fun _ => none) p).isSome := by
  have hw := C01_invariant (I := I) (K := K) (V := V) ops
  have hh := run_pointwise hops (wf_new (K := K) (V := V) (I := I)) (f := fun _ => none) (by
    intro p v; constructor
    · intro h; cases h
    · rintro ⟨e, he, -⟩; exact absurd he List.not_mem_nil)
  generalize ((new : NoditMap K V).run ops).1 = m at *
  generalize ops.foldl pointStep (fun _ => none) = f at *
  obtain ⟨r, h1, h2⟩ := spec_getAtPoint hw p
  obtain ⟨b, h3, h4⟩ := spec_containsPoint hw p
  rw [h1, h3, option_unique h2 (hh p)]
  refine ⟨rfl, congrArg _ (bool_unique h4 ?_)⟩
  rw [Option.isSome_iff_exists]
  constructor
  · rintro ⟨v, hv⟩; obtain ⟨e, he, hp, -⟩ := (hh p v).1 hv; exact ⟨e, he, hp⟩
  · rintro ⟨e, he, hp⟩; exact ⟨e.2, (hh p _).2 ⟨e, he, hp, rfl⟩⟩

/-- a history with an overwrite in the middle of an entry, an equal-value merge and a cut -/
def Demo.pops : List (Op Demo.U8 (Interval Demo.U8) Nat) :=
  [.insertStrict (Demo.iv 0 9) 7, .insertOverwrite (Demo.iv 3 5) 8,
    .insertMergeTouchingIfValuesEqual (Demo.iv 10 12) 7, .cut (Demo.iv 8 10)]
example : (∀ op ∈ Demo.pops, op.Pointwise) ∧
    (new.run Demo.pops).1.iter = [(Demo.iv 0 2, 7), (Demo.iv 3 5, 8), (Demo.iv 6 7, 7), (Demo.iv 11 12, 7)] := by
  refine ⟨?_, by decide⟩
  simp [Demo.pops, Op.Pointwise]

end Nodit
