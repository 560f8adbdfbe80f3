import Verif.Props.Algebra
/-!
# C92, C93: what a call does not affect

C92: entries and points a call has no business with are left alone, over whole histories. C93: clients working on separate
regions of one map do not observe each other, under every schedule of their calls.
-/
set_option linter.unusedSectionVars false
namespace Nodit
namespace Spec
variable {I K A B V : Type} [PointType I] [IntervalType I K] [IntervalType I A] [IntervalType I B]

/-- the intervals share a point or touch -/
def Near (a : A) (b : B) : Prop := Touch a b ∨ Overlap a b

/-- the call joins what it inserts with entries that touch it -/
def Op.Joins : Op I K V → Prop
  | .insertMergeTouching _ _ | .insertMergeTouchingIfValuesEqual _ _ | .insertMergeTouchingOrOverlapping _ _ => True
  | _ => False

/-- The entry is one the call may change, join with what it inserts, shorten or remove. -/
def Op.Affects [BEq V] : Op I K V → K × V → Prop
  | .insertMergeTouching k _, e => Touch e.1 k
  | .insertMergeTouchingIfValuesEqual k v, e => Touch e.1 k ∧ (e.2 == v) = true
  | .insertMergeOverlapping k _, e | .insertOverwrite k _, e => Overlap e.1 k
  | .insertMergeTouchingOrOverlapping k _, e => Touch e.1 k ∨ Overlap e.1 k
  | .cut q, e | .removeOverlapping q, e | .overlappingMut q _, e => Overlap e.1 q
  | .getAtPointMut p _, e => Mem p e.1
  | .iterMut _, _ => True
  | _, _ => False

/-- the point is in the interval the call inserts -/
def Op.Inserts : Op I K V → I → Prop
  | .insertStrict k _, p | .insertMergeTouching k _, p | .insertMergeTouchingIfValuesEqual k _, p
  | .insertMergeOverlapping k _, p | .insertMergeTouchingOrOverlapping k _, p | .insertOverwrite k _, p => Mem p k
  | _, _ => False

/-- the point is in the interval cut, or in an entry that a `remove_overlapping` may take -/
def Op.Uncovers : Op I K V → I → Prop
  | .cut q, p => Mem p q
  | .removeOverlapping _, _ => True
  | _, _ => False

/-- The interval a call works on, if it works on one: its argument, or the single point it is given. The calls that look at
the map as a whole, or (`get_key_value_at_point`, `gaps_untrimmed`) report gaps beyond their argument, have none. -/
def Op.arg : Op I K V → Option (Interval I)
  | .insertStrict k _ | .insertMergeTouching k _ | .insertMergeTouchingIfValuesEqual k _
  | .insertMergeOverlapping k _ | .insertMergeTouchingOrOverlapping k _ | .insertOverwrite k _ => some ⟨start k, stop k⟩
  | .cut q | .removeOverlapping q | .overlapping q | .overlaps q | .gapsTrimmed q
  | .containsInterval q | .overlappingMut q _ => some q
  | .getAtPoint p | .containsPoint p | .getAtPointMut p _ => some ⟨p, p⟩
  | _ => none

/-- the call works on an interval within `a` -/
def Op.Within (op : Op I K V) (a : Interval I) : Prop := ∃ i, op.arg = some i ∧ ∀ p, Mem p i → Mem p a

/-- what belongs to client `c` in a sequence of things labelled with clients -/
def own {ι α : Type} [DecidableEq ι] (c : ι) (l : List (ι × α)) : List α :=
  l.filterMap fun x => if x.1 = c then some x.2 else none
end Spec
open Spec PointType NoditMap

variable {I K A B Q V : Type} [PointType I] [IntervalType I K] [IntervalType I A] [IntervalType I B] [IntervalType I Q]
  [LawfulPoint I] [LawfulInterval I K]

/-! ## C92 -/

theorem specOp_unaffected [BEq V] {S S' : Set (K × V)} {op : Op I K V} {o : Out K V} (h : SpecOp S op S' o) {e : K × V}
    (he : e ∈ S) (ha : ¬ op.Affects e) : e ∈ S' := by
  cases op with
  | insertStrict k v =>
    by_cases hc : ∃ e ∈ S, Overlap e.1 k
    · rw [(h.1 hc).1]; exact he
    · rw [(h.2 hc).1]; exact Or.inl he
  | insertMergeTouching k v | insertMergeTouchingIfValuesEqual k v =>
    by_cases hc : ∃ e ∈ S, Overlap e.1 k
    · rw [(h.1 hc).1]; exact he
    · obtain ⟨r, -, hS, -⟩ := h.2 hc
      rw [hS]; exact Or.inl ⟨he, ha⟩
  | insertMergeOverlapping k v | insertMergeTouchingOrOverlapping k v =>
    obtain ⟨r, -, hS, -⟩ := h
    rw [hS]; exact Or.inl ⟨he, ha⟩
  | insertOverwrite k v =>
    obtain ⟨l, -, hS, -⟩ := h
    rw [hS]; exact Or.inl (Or.inl ⟨he, ha⟩)
  | cut q =>
    obtain ⟨l, -, hS, -⟩ := h
    rw [hS]; exact Or.inl ⟨he, ha⟩
  | removeOverlapping q =>
    obtain ⟨l, -, hS, -⟩ := h
    rw [hS]; exact ⟨he, ha⟩
  | overlappingMut q f =>
    rw [h.1]; exact ⟨e, he, Or.inr ⟨ha, rfl⟩⟩
  | getAtPointMut p f =>
    obtain ⟨r, -, hS, -⟩ := h
    rw [hS]; exact ⟨e, he, Or.inr ⟨ha, rfl⟩⟩
  | iterMut f => exact absurd trivial ha
  | getKeyValueAtPoint p => obtain ⟨r, -, -, rfl, -⟩ := h; exact he
  | overlapping q | overlaps q | gapsUntrimmed q | gapsTrimmed q | containsInterval q | getAtPoint p | containsPoint p
  | iter | len | isEmpty | firstKeyValue | lastKeyValue => obtain ⟨r, -, rfl, -⟩ := h; exact he

/-- **C92**: over any history of calls, an entry that none of the calls may change, merge, shorten or remove is still
there afterwards, with its key and value. -/
theorem C92_unaffected_entry_stays [BEq V] {m : NoditMap K V} (h : WF m.iter) (ops : List (Op I K V)) {e : K × V}
    (he : e ∈ m.iter) (ha : ∀ op ∈ ops, ¬ op.Affects e) : e ∈ (m.run ops).1.iter := by
  induction ops generalizing m with
  | nil => exact he
  | cons op ops ih =>
    rcases step_refines h op with ⟨hb, heq⟩ | ⟨hb, m', o, ho, hw, hs⟩
    · simp only [run, heq]
      exact ih h he fun op hop => ha op (List.mem_cons_of_mem _ hop)
    · simp only [run, ho]
      exact ih hw (specOp_unaffected hs he (ha op List.mem_cons_self)) fun op hop => ha op (List.mem_cons_of_mem _ hop)

theorem specOp_uncovered [BEq V] {S S' : Set (K × V)} {op : Op I K V} {o : Out K V} (h : SpecOp S op S' o) {p : I}
    (he : ¬ Covered S p) (ha : ¬ op.Inserts p) : ¬ Covered S' p := by
  have sub : ∀ T : Set (K × V), (∀ e ∈ T, Mem p e.1 → Covered S p) → ¬ Covered T p := fun T hT ⟨e, he', hp⟩ => he (hT e he' hp)
  have cutS : ∀ {C : Type} [IntervalType I C] (q : C), ∀ e ∈ CutRemaining S q, Mem p e.1 → Covered S p := by
    rintro C _ q e (⟨he, -⟩ | ⟨f, hf, -, i, rfl, hd⟩) hp
    · exact ⟨e, he, hp⟩
    · refine ⟨f, hf, ?_⟩
      have hp' : Mem p i := by rw [Mem, LawfulInterval.start_of, LawfulInterval.stop_of] at hp; exact hp
      rcases hd with hd | hd <;> exact ((hd.2 p).1 hp').1
  have key : ∀ {k : K} {T : Set (K × V)} {r : K}, MergedKey k T r → (∀ e ∈ T, e ∈ S) → ¬ Mem p k → Mem p r → Covered S p := by
    intro k T r hr hT hk hp
    rcases (hr.1 p).1 hp with h | ⟨e, he, hpe⟩
    · exact absurd h hk
    · exact ⟨e, hT e he, hpe⟩
  cases op with
  | insertStrict k v =>
    by_cases hc : ∃ e ∈ S, Overlap e.1 k
    · rw [(h.1 hc).1]; exact he
    · rw [(h.2 hc).1]
      refine sub _ ?_
      rintro e (h1 | rfl) hp
      · exact ⟨e, h1, hp⟩
      · exact absurd hp ha
  | insertMergeTouching k v | insertMergeTouchingIfValuesEqual k v =>
    by_cases hc : ∃ e ∈ S, Overlap e.1 k
    · rw [(h.1 hc).1]; exact he
    · obtain ⟨r, hr, hS, -⟩ := h.2 hc
      rw [hS]
      refine sub _ ?_
      rintro e (h1 | rfl) hp
      · exact ⟨e, h1.1, hp⟩
      · exact key hr (fun e he => he.1) ha hp
  | insertMergeOverlapping k v | insertMergeTouchingOrOverlapping k v =>
    obtain ⟨r, hr, hS, -⟩ := h
    rw [hS]
    refine sub _ ?_
    rintro e (h1 | rfl) hp
    · exact ⟨e, h1.1, hp⟩
    · exact key hr (fun e he => he.1) ha hp
  | insertOverwrite k v =>
    obtain ⟨l, -, hS, -⟩ := h
    rw [hS]
    refine sub _ ?_
    rintro e (h1 | rfl) hp
    · exact cutS k e h1 hp
    · exact absurd hp ha
  | cut q =>
    obtain ⟨l, -, hS, -⟩ := h
    rw [hS]
    exact sub _ (cutS q)
  | removeOverlapping q =>
    obtain ⟨l, -, hS, -⟩ := h
    rw [hS]; exact sub _ fun e he hp => ⟨e, he.1, hp⟩
  | overlappingMut q f =>
    rw [h.1]
    refine sub _ ?_
    rintro e ⟨d, hd, ⟨-, he⟩ | ⟨-, he⟩⟩ hp <;> subst he <;> exact ⟨_, hd, hp⟩
  | getAtPointMut p f =>
    obtain ⟨r, -, hS, -⟩ := h
    rw [hS]
    refine sub _ ?_
    rintro e ⟨d, hd, ⟨-, he⟩ | ⟨-, he⟩⟩ hp <;> subst he <;> exact ⟨_, hd, hp⟩
  | iterMut f =>
    rw [h.1]
    refine sub _ ?_
    rintro e ⟨d, hd, rfl⟩ hp; exact ⟨d, hd, hp⟩
  | getKeyValueAtPoint p => obtain ⟨r, -, -, rfl, -⟩ := h; exact he
  | overlapping q | overlaps q | gapsUntrimmed q | gapsTrimmed q | containsInterval q | getAtPoint p | containsPoint p
  | iter | len | isEmpty | firstKeyValue | lastKeyValue => obtain ⟨r, -, rfl, -⟩ := h; exact he

/-- **C92**: over any history of calls, a point that was not covered and lies in none of the inserted intervals is not
covered afterwards: no merge ever covers a gap. -/
theorem C92_uncovered_point_stays [BEq V] {m : NoditMap K V} (h : WF m.iter) (ops : List (Op I K V)) {p : I}
    (hp : ¬ ∃ e ∈ m.iter, Mem p e.1) (ha : ∀ op ∈ ops, ¬ op.Inserts p) : ¬ ∃ e ∈ (m.run ops).1.iter, Mem p e.1 := by
  induction ops generalizing m with
  | nil => exact hp
  | cons op ops ih =>
    rcases step_refines h op with ⟨hb, heq⟩ | ⟨hb, m', o, ho, hw, hs⟩
    · simp only [run, heq]
      exact ih h hp fun op hop => ha op (List.mem_cons_of_mem _ hop)
    · simp only [run, ho]
      exact ih hw (specOp_uncovered hs hp (ha op List.mem_cons_self)) fun op hop => ha op (List.mem_cons_of_mem _ hop)

theorem specOp_covered [BEq V] {S S' : Set (K × V)} (hv : ∀ e ∈ S, Valid e.1) {op : Op I K V} (hb : ¬ op.Bad) {o : Out K V}
    (h : SpecOp S op S' o) {p : I} (he : Covered S p) (ha : ¬ op.Uncovers p) : Covered S' p := by
  obtain ⟨e, he, hp⟩ := he
  have cutS : ∀ {C : Type} [IntervalType I C] (q : C), Valid q → ¬ Mem p q → Covered (CutRemaining S q) p := by
    intro C _ q hq hpq
    by_cases ho : Overlap e.1 q
    · obtain ⟨i, hi, hpi⟩ := maximalRun_diff_exists (hv e he) hq hp hpq
      refine ⟨(ofInterval i, e.2), Or.inr ⟨e, he, ho, i, rfl, (maximalRun_diff (hv e he) hq).1 hi⟩, ?_⟩
      rw [Mem, LawfulInterval.start_of, LawfulInterval.stop_of]; exact hpi
    · exact ⟨e, Or.inl ⟨he, ho⟩, hp⟩
  have key : ∀ {k : K} {T : Set (K × V)} {r : K} {R : Set (K × V)} {v : V}, MergedKey k T r → (e ∈ T ∨ e ∈ R) →
      Covered (R ∪ {(r, v)}) p := by
    rintro k T r R v hr (hT | hR)
    · exact ⟨(r, v), Or.inr rfl, (hr.1 p).2 (Or.inr ⟨e, hT, hp⟩)⟩
    · exact ⟨e, Or.inl hR, hp⟩
  cases op with
  | insertStrict k v =>
    by_cases hc : ∃ e ∈ S, Overlap e.1 k
    · rw [(h.1 hc).1]; exact ⟨e, he, hp⟩
    · rw [(h.2 hc).1]; exact ⟨e, Or.inl he, hp⟩
  | insertMergeTouching k v | insertMergeTouchingIfValuesEqual k v =>
    by_cases hc : ∃ e ∈ S, Overlap e.1 k
    · rw [(h.1 hc).1]; exact ⟨e, he, hp⟩
    · obtain ⟨r, hr, hS, -⟩ := h.2 hc
      rw [hS]
      refine key hr ?_
      simp only [Set.mem_ofPred_eq]; tauto
  | insertMergeOverlapping k v | insertMergeTouchingOrOverlapping k v =>
    obtain ⟨r, hr, hS, -⟩ := h
    rw [hS]
    refine key hr ?_
    simp only [Set.mem_ofPred_eq]; tauto
  | insertOverwrite k v =>
    obtain ⟨l, -, hS, -⟩ := h
    rw [hS]
    by_cases hk : Mem p k
    · exact ⟨(k, v), Or.inr rfl, hk⟩
    · obtain ⟨f, hf, hpf⟩ := cutS k (not_not.1 hb) hk
      exact ⟨f, Or.inl hf, hpf⟩
  | cut q =>
    obtain ⟨l, -, hS, -⟩ := h
    rw [hS]
    exact cutS q (not_not.1 hb) ha
  | removeOverlapping q => exact absurd trivial ha
  | overlappingMut q f =>
    rw [h.1]
    by_cases ho : Overlap e.1 q
    · exact ⟨(e.1, f e.1 e.2), ⟨e, he, Or.inl ⟨ho, rfl⟩⟩, hp⟩
    · exact ⟨e, ⟨e, he, Or.inr ⟨ho, rfl⟩⟩, hp⟩
  | getAtPointMut p' f =>
    obtain ⟨r, -, hS, -⟩ := h
    rw [hS]
    by_cases ho : Mem p' e.1
    · exact ⟨(e.1, f e.2), ⟨e, he, Or.inl ⟨ho, rfl⟩⟩, hp⟩
    · exact ⟨e, ⟨e, he, Or.inr ⟨ho, rfl⟩⟩, hp⟩
  | iterMut f =>
    rw [h.1]; exact ⟨(e.1, f e.1 e.2), ⟨e, he, rfl⟩, hp⟩
  | getKeyValueAtPoint p => obtain ⟨r, -, -, rfl, -⟩ := h; exact ⟨e, he, hp⟩
  | overlapping q | overlaps q | gapsUntrimmed q | gapsTrimmed q | containsInterval q | getAtPoint p | containsPoint p
  | iter | len | isEmpty | firstKeyValue | lastKeyValue => obtain ⟨r, -, rfl, -⟩ := h; exact ⟨e, he, hp⟩

/-- **C92**: over any history of calls without `remove_overlapping`, a covered point that is in none of the intervals cut
stays covered: no insert ever uncovers a point. -/
theorem C92_covered_point_stays [BEq V] {m : NoditMap K V} (h : WF m.iter) (ops : List (Op I K V)) {p : I}
    (hp : ∃ e ∈ m.iter, Mem p e.1) (ha : ∀ op ∈ ops, ¬ op.Uncovers p) : ∃ e ∈ (m.run ops).1.iter, Mem p e.1 := by
  induction ops generalizing m with
  | nil => exact hp
  | cons op ops ih =>
    rcases step_refines h op with ⟨hb, heq⟩ | ⟨hb, m', o, ho, hw, hs⟩
    · simp only [run, heq]
      exact ih h hp fun op hop => ha op (List.mem_cons_of_mem _ hop)
    · simp only [run, ho]
      exact ih hw (specOp_covered h.1 hb hs hp (ha op List.mem_cons_self)) fun op hop => ha op (List.mem_cons_of_mem _ hop)

/-! ## C93 -/

theorem near_iff {a : A} {b : B} (ha : Valid a) (hb : Valid b) :
    Near a b ↔ ¬ ∃ p, (stop a < p ∧ p < start b) ∨ (stop b < p ∧ p < start a) := by
  rw [valid_iff] at ha hb
  unfold Near Touch
  simp only [forall_mem_lt ha, forall_mem_lt hb, forall_mem_gt ha, forall_mem_gt hb, overlap_iff ha hb]
  constructor
  · rintro (⟨-, h⟩ | ⟨h1, h2⟩) ⟨p, hp⟩
    · rcases hp with hp | hp
      · exact (h p).1 hp
      · exact (h p).2 hp
    · rcases hp with hp | hp <;> order
  · intro h
    by_cases ho : start a ≤ stop b ∧ start b ≤ stop a
    · exact Or.inr ho
    · exact Or.inl ⟨ho, fun p => ⟨fun hp => h ⟨p, Or.inl hp⟩, fun hp => h ⟨p, Or.inr hp⟩⟩⟩

/-- an interval all of whose points are in intervals that are not near `b` is not near `b` -/
theorem not_near_of_cover {a : A} {b : B} (ha : Valid a) (hb : Valid b)
    (hc : ∀ p, Mem p a → ∃ c : Interval I, Mem p c ∧ ¬ Near c b) : ¬ Near a b := by
  rw [near_iff ha hb, not_not]
  have ha' := valid_iff.1 ha
  have hb' := valid_iff.1 hb
  obtain ⟨c, hpc, hn⟩ := hc (stop a) ⟨ha', le_refl _⟩
  obtain ⟨c', hpc', hn'⟩ := hc (start a) ⟨le_refl _, ha'⟩
  rw [near_iff ⟨_, hpc⟩ hb, not_not] at hn
  rw [near_iff ⟨_, hpc'⟩ hb, not_not] at hn'
  by_cases ho : Overlap a b
  · obtain ⟨x, hxa, hxb⟩ := ho
    obtain ⟨d, hxd, hd⟩ := hc x hxa
    exact absurd (Or.inr ⟨x, hxd, hxb⟩) hd
  · rw [overlap_iff ha' hb', not_and_or, not_le, not_le] at ho
    rcases ho with ho | ho
    · obtain ⟨p, hp | hp⟩ := hn'
      · have := hpc'.1; have := hpc'.2; refine ⟨p, ?_⟩; exfalso; order
      · exact ⟨p, Or.inr ⟨hp.1, lt_of_lt_of_le hp.2 hpc'.1⟩⟩
    · obtain ⟨p, hp | hp⟩ := hn
      · exact ⟨p, Or.inl ⟨lt_of_le_of_lt hpc.2 hp.1, hp.2⟩⟩
      · have := hpc.1; have := hpc.2; exfalso; order

theorem near_comm {a : A} {b : B} : Near a b ↔ Near b a := by
  simp only [Near, Touch, overlap_comm (a := a)]
  constructor <;> (rintro (⟨h1, h2⟩ | h) ; exacts [Or.inl ⟨h1, fun p => ⟨(h2 p).2, (h2 p).1⟩⟩, Or.inr h])

/-- the intervals share a point or, if touching counts, touch -/
def NearIf (J : Prop) (a : A) (b : B) : Prop := Overlap a b ∨ (J ∧ Touch a b)

theorem nearIf_true {a : A} {b : B} : NearIf True a b ↔ Near a b := by
  simp only [NearIf, Near, true_and]; exact or_comm

theorem nearIf_false {a : A} {b : B} : NearIf False a b ↔ Overlap a b := by simp [NearIf]

theorem nearIf_comm {J : Prop} {a : A} {b : B} : NearIf J a b ↔ NearIf J b a := by
  by_cases hJ : J
  · have : J = True := eq_true hJ
    subst this
    rw [nearIf_true, nearIf_true, near_comm]
  · have : J = False := eq_false hJ
    subst this
    rw [nearIf_false, nearIf_false, overlap_comm]

theorem not_nearIf_of_cover {J : Prop} {a : A} {b : B} (ha : Valid a) (hb : Valid b)
    (hc : ∀ p, Mem p a → ∃ c : Interval I, Mem p c ∧ ¬ NearIf J c b) : ¬ NearIf J a b := by
  by_cases hJ : J
  · have : J = True := eq_true hJ
    subst this
    simp only [nearIf_true] at hc ⊢
    exact not_near_of_cover ha hb hc
  · have : J = False := eq_false hJ
    subst this
    simp only [nearIf_false] at hc ⊢
    rintro ⟨p, hpa, hpb⟩
    obtain ⟨c, hpc, hn⟩ := hc p hpa
    exact hn ⟨p, hpc, hpb⟩

theorem arg_valid {op : Op I K V} {a : Interval I} (ha : op.arg = some a) (hb : ¬ op.Bad) : Valid a := by
  cases op <;> simp only [Op.arg, Option.some.injEq, reduceCtorEq] at ha <;> subst ha
  all_goals first
    | exact not_not.1 hb
    | exact ⟨_, le_refl _, le_refl _⟩

theorem inserts_arg {op : Op I K V} {a : Interval I} (ha : op.arg = some a) {p : I} (hp : op.Inserts p) : Mem p a := by
  cases op <;> simp only [Op.arg, Option.some.injEq, reduceCtorEq] at ha <;> subst ha
  all_goals first
    | exact hp
    | exact absurd hp id

/-- trimming the maximal runs to an interval gives the maximal runs within the interval -/
theorem trimmed_run_iff {P : I → Prop} (hP : ∀ p, P p → ∃ g, MaximalRun P g ∧ Mem p g) {q i : Interval I} :
    (∃ g, MaximalRun P g ∧ Describes i (fun p => Mem p g ∧ Mem p q)) ↔ MaximalRun (fun p => P p ∧ Mem p q) i := by
  constructor
  · rintro ⟨g, hg, hv, hi⟩
    refine ⟨hv, fun p hp => ⟨hg.2.1 p ((hi p).1 hp).1, ((hi p).1 hp).2⟩, ?_⟩
    rintro j hj ⟨x, hxi, hxj⟩ p hp
    exact (hi p).2 ⟨hg.2.2 j (fun y hy => (hj y hy).1) ⟨x, ((hi x).1 hxi).1, hxj⟩ p hp, (hj p hp).2⟩
  · rintro ⟨⟨x, hx⟩, hi, hmax⟩
    obtain ⟨g, hg, hxg⟩ := hP x (hi x hx).1
    refine ⟨g, hg, ⟨x, hx⟩, fun p => ⟨fun hp => ⟨?_, (hi p hp).2⟩, fun hp => ?_⟩⟩
    · exact hg.2.2 i (fun y hy => (hi y hy).1) ⟨x, hxg, hx⟩ p hp
    · have hxq := (hi x hx).2
      refine hmax ⟨min p x, max p x⟩ (fun y hy => ?_) ⟨x, hx, min_le_right _ _, le_max_right _ _⟩ p ⟨min_le_left _ _, le_max_left _ _⟩
      have h1 : min p x ≤ y := hy.1
      have h2 : y ≤ max p x := hy.2
      have hyg : Mem y g := ⟨le_trans (le_min hp.1.1 hxg.1) h1, le_trans h2 (max_le hp.1.2 hxg.2)⟩
      exact ⟨hg.2.1 y hyg, le_trans (le_min hp.2.1 hxq.1) h1, le_trans h2 (max_le hp.2.2 hxq.2)⟩

/-- the gap around an uncovered point of a map -/
theorem gap_exists {m : NoditMap K V} (h : WF m.iter) {p : I} (hp : ¬ Covered m.entrySet p) :
    ∃ g, MaximalRun (fun p => ¬ Covered m.entrySet p) g ∧ Mem p g := by
  obtain ⟨r, hr, h1, h2⟩ := spec_getKeyValueAtPoint h p
  cases r with
  | ok e => exact absurd ⟨e, (h1 e).1 rfl⟩ hp
  | error g => obtain ⟨i, -, hi⟩ := h2 g rfl; exact ⟨i, hi⟩

/-- a call has the same result, and the same effect, if entries are added that are not near its argument -/
theorem specOp_frame [BEq V] {J : Prop} {N N' R : Set (K × V)} {op : Op I K V} {o : Out K V} {a : Interval I} (ha : op.arg = some a)
    (hb : ¬ op.Bad) (hj : op.Joins → J) (h : SpecOp N op N' o) (hR : ∀ e ∈ R, ¬ NearIf J e.1 a)
    (hN : ∀ p, ¬ Covered N p → ∃ g, MaximalRun (fun p => ¬ Covered N p) g ∧ Mem p g)
    (hNR : ∀ p, ¬ Covered (N ∪ R) p → ∃ g, MaximalRun (fun p => ¬ Covered (N ∪ R) p) g ∧ Mem p g) : SpecOp (N ∪ R) op (N' ∪ R) o := by
  have hno : ∀ e ∈ R, ¬ Overlap e.1 a := fun e he ho => hR e he (Or.inl ho)
  have hnt : op.Joins → ∀ e ∈ R, ¬ Touch e.1 a := fun h e he ho => hR e he (Or.inr ⟨hj h, ho⟩)
  have hex : (∃ e ∈ N ∪ R, Overlap e.1 a) ↔ ∃ e ∈ N, Overlap e.1 a := by
    constructor
    · rintro ⟨e, he | he, ho⟩
      · exact ⟨e, he, ho⟩
      · exact absurd ho (hno e he)
    · rintro ⟨e, he, ho⟩; exact ⟨e, Or.inl he, ho⟩
  have same : ∀ P : K × V → Prop, (∀ e ∈ R, ¬ P e) → {e | e ∈ N ∪ R ∧ P e} = {e | e ∈ N ∧ P e} := by
    intro P hP; ext e
    constructor
    · rintro ⟨he | he, hp⟩
      · exact ⟨he, hp⟩
      · exact absurd hp (hP e he)
    · rintro ⟨he, hp⟩; exact ⟨Or.inl he, hp⟩
  have rest : ∀ P : K × V → Prop, (∀ e ∈ R, ¬ P e) → {e | e ∈ N ∪ R ∧ ¬ P e} = {e | e ∈ N ∧ ¬ P e} ∪ R := by
    intro P hP; ext e
    constructor
    · rintro ⟨he | he, hp⟩
      · exact Or.inl ⟨he, hp⟩
      · exact Or.inr he
    · rintro (⟨he, hp⟩ | he)
      · exact ⟨Or.inl he, hp⟩
      · exact ⟨Or.inr he, hP e he⟩
  have ret : CutReturned (N ∪ R) a = CutReturned N a := by
    ext e
    constructor
    · rintro ⟨f, hf | hf, i, he, hd⟩
      · exact ⟨f, hf, i, he, hd⟩
      · obtain ⟨x, hx⟩ := hd.1
        exact absurd ⟨x, (hd.2 x).1 hx⟩ (hno f hf)
    · rintro ⟨f, hf, i, he, hd⟩; exact ⟨f, Or.inl hf, i, he, hd⟩
  have rem : CutRemaining (N ∪ R) a = CutRemaining N a ∪ R := by
    ext e
    constructor
    · rintro (⟨he | he, ho⟩ | ⟨f, hf | hf, ho, hd⟩)
      · exact Or.inl (Or.inl ⟨he, ho⟩)
      · exact Or.inr he
      · exact Or.inl (Or.inr ⟨f, hf, ho, hd⟩)
      · exact absurd ho (hno f hf)
    · rintro ((⟨he, ho⟩ | ⟨f, hf, ho, hd⟩) | he)
      · exact Or.inl ⟨Or.inl he, ho⟩
      · exact Or.inr ⟨f, Or.inl hf, ho, hd⟩
      · exact Or.inl ⟨Or.inr he, hno e he⟩
  have cov : ∀ p, Mem p a → (Covered (N ∪ R) p ↔ Covered N p) := by
    intro p hp
    constructor
    · rintro ⟨e, he | he, hpe⟩
      · exact ⟨e, he, hpe⟩
      · exact absurd ⟨p, hpe, hp⟩ (hno e he)
    · rintro ⟨e, he, hpe⟩; exact ⟨e, Or.inl he, hpe⟩
  have hval := arg_valid ha hb
  have insert_swap : ∀ (T : Set (K × V)) (x : K × V), T ∪ R ∪ {x} = T ∪ {x} ∪ R := by
    intro T x; ext e; simp only [Set.mem_union]; tauto
  cases op with
  | insertStrict k v =>
    cases ha
    refine ⟨fun hc => ?_, fun hc => ?_⟩
    · obtain ⟨rfl, ho⟩ := h.1 (hex.1 hc); exact ⟨rfl, ho⟩
    · obtain ⟨rfl, ho⟩ := h.2 (fun hn => hc (hex.2 hn))
      exact ⟨(insert_swap _ _).symm, ho⟩
  | insertMergeTouching k v =>
    cases ha
    have hnt : ∀ e ∈ R, ¬ Touch e.1 k := hnt trivial
    refine ⟨fun hc => ?_, fun hc => ?_⟩
    · obtain ⟨rfl, ho⟩ := h.1 (hex.1 hc); exact ⟨rfl, ho⟩
    · obtain ⟨r, hr, rfl, ho⟩ := h.2 (fun hn => hc (hex.2 hn))
      refine ⟨r, ?_, ?_, ho⟩
      · rw [same _ hnt]; exact hr
      · rw [rest _ hnt]; exact (insert_swap _ _).symm
  | insertMergeTouchingIfValuesEqual k v =>
    cases ha
    refine ⟨fun hc => ?_, fun hc => ?_⟩
    · obtain ⟨rfl, ho⟩ := h.1 (hex.1 hc); exact ⟨rfl, ho⟩
    · obtain ⟨r, hr, rfl, ho⟩ := h.2 (fun hn => hc (hex.2 hn))
      have hP : ∀ e ∈ R, ¬ (Touch e.1 k ∧ (e.2 == v) = true) := fun e he hh => hnt trivial e he hh.1
      refine ⟨r, ?_, ?_, ho⟩
      · rw [same _ hP]; exact hr
      · rw [rest _ hP]; exact (insert_swap _ _).symm
  | insertMergeOverlapping k v =>
    cases ha
    have hno : ∀ e ∈ R, ¬ Overlap e.1 k := hno
    obtain ⟨r, hr, rfl, ho⟩ := h
    refine ⟨r, ?_, ?_, ho⟩
    · rw [same _ hno]; exact hr
    · rw [rest _ hno]; exact (insert_swap _ _).symm
  | insertMergeTouchingOrOverlapping k v =>
    cases ha
    have hR : ∀ e ∈ R, ¬ (Touch e.1 k ∨ Overlap e.1 k) := fun e he h => h.elim (hnt trivial e he) (hno e he)
    obtain ⟨r, hr, rfl, ho⟩ := h
    refine ⟨r, ?_, ?_, ho⟩
    · rw [same _ hR]; exact hr
    · rw [rest _ hR]; exact (insert_swap _ _).symm
  | insertOverwrite k v =>
    cases ha
    obtain ⟨l, hl, rfl, ho⟩ := h
    refine ⟨l, ?_, ?_, ho⟩
    · exact ret ▸ hl
    · have : CutRemaining (N ∪ R) k = CutRemaining N k ∪ R := rem
      rw [this, insert_swap]
  | cut q =>
    cases ha
    obtain ⟨l, hl, rfl, ho⟩ := h
    exact ⟨l, ret ▸ hl, rem.symm, ho⟩
  | removeOverlapping q =>
    cases ha
    obtain ⟨l, hl, rfl, ho⟩ := h
    exact ⟨l, by rw [same _ hno]; exact hl, (rest _ hno).symm, ho⟩
  | overlapping q =>
    cases ha
    obtain ⟨l, hl, rfl, ho⟩ := h
    exact ⟨l, by rw [same _ hno]; exact hl, rfl, ho⟩
  | overlaps q =>
    cases ha
    obtain ⟨b, hl, rfl, ho⟩ := h
    exact ⟨b, hl.trans hex.symm, rfl, ho⟩
  | gapsTrimmed q =>
    cases ha
    obtain ⟨l, hl, rfl, ho⟩ := h
    refine ⟨l, ?_, rfl, ho⟩
    refine ⟨hl.1, fun k => (hl.2 k).trans ?_⟩
    refine exists_congr fun i => and_congr_right fun _ => ?_
    refine (trimmed_run_iff hN).trans (Iff.trans ?_ (trimmed_run_iff hNR).symm)
    exact MaximalRun.congr fun p => and_congr_left fun hp => not_congr (cov p hp).symm
  | containsInterval q =>
    cases ha
    obtain ⟨b, hl, rfl, ho⟩ := h
    exact ⟨b, hl.trans (forall_congr' fun p => imp_congr_right fun hp => (cov p hp).symm), rfl, ho⟩
  | overlappingMut q f =>
    cases ha
    obtain ⟨rfl, ho⟩ := h
    refine ⟨?_, ho⟩
    ext e
    constructor
    · rintro (⟨d, hd, hh⟩ | he)
      · exact ⟨d, Or.inl hd, hh⟩
      · exact ⟨e, Or.inr he, Or.inr ⟨hno e he, rfl⟩⟩
    · rintro ⟨d, hd | hd, hh⟩
      · exact Or.inl ⟨d, hd, hh⟩
      · rcases hh with ⟨hh, -⟩ | ⟨-, rfl⟩
        · exact absurd hh (hno d hd)
        · exact Or.inr hd
  | getAtPoint p =>
    cases ha
    obtain ⟨r, hr, rfl, ho⟩ := h
    refine ⟨r, fun v => (hr v).trans ?_, rfl, ho⟩
    constructor
    · rintro ⟨e, he, hh⟩; exact ⟨e, Or.inl he, hh⟩
    · rintro ⟨e, he | he, hh⟩
      · exact ⟨e, he, hh⟩
      · exact absurd ⟨p, hh.1, le_refl _, le_refl _⟩ (hno e he)
  | containsPoint p =>
    cases ha
    obtain ⟨b, hl, rfl, ho⟩ := h
    exact ⟨b, hl.trans (cov p ⟨le_refl _, le_refl _⟩).symm, rfl, ho⟩
  | getAtPointMut p f =>
    cases ha
    have hp : ∀ e ∈ R, ¬ Mem p e.1 := fun e he hp => hno e he ⟨p, hp, le_refl _, le_refl _⟩
    obtain ⟨r, hr, rfl, ho⟩ := h
    refine ⟨r, fun v => (hr v).trans ?_, ?_, ho⟩
    · constructor
      · rintro ⟨e, he, hh⟩; exact ⟨e, Or.inl he, hh⟩
      · rintro ⟨e, he | he, hh⟩
        · exact ⟨e, he, hh⟩
        · exact absurd hh.1 (hp e he)
    · ext e
      constructor
      · rintro (⟨d, hd, hh⟩ | he)
        · exact ⟨d, Or.inl hd, hh⟩
        · exact ⟨e, Or.inr he, Or.inr ⟨hp e he, rfl⟩⟩
      · rintro ⟨d, hd | hd, hh⟩
        · exact Or.inl ⟨d, hd, hh⟩
        · rcases hh with ⟨hh, -⟩ | ⟨-, rfl⟩
          · exact absurd hh (hp d hd)
          · exact Or.inr hd
  | gapsUntrimmed q | getKeyValueAtPoint p | iterMut f | iter | len | isEmpty | firstKeyValue | lastKeyValue => cases ha

/-- one call on a map of which only a part is near its argument: as on the part alone -/
theorem step_frame [BEq V] {J : Prop} {m n : NoditMap K V} {R : Set (K × V)} (hm : WF m.iter) (hn : WF n.iter)
    (hmn : m.entrySet = n.entrySet ∪ R) {op : Op I K V} {a : Interval I} (ha : op.arg = some a) (hj : op.Joins → J)
    (hR : ∀ e ∈ R, ¬ NearIf J e.1 a) :
    (op.Bad ∧ m.step op = .error .invalidInterval ∧ n.step op = .error .invalidInterval) ∨
    ∃ m' n' o, m.step op = .ok (m', o) ∧ n.step op = .ok (n', o) ∧ WF m'.iter ∧ WF n'.iter ∧
      m'.entrySet = n'.entrySet ∪ R ∧
      ∀ e ∈ n'.iter, ∀ p, Mem p e.1 → Mem p a ∨ ∃ f ∈ n.iter, Mem p f.1 := by
  rcases step_refines hn op with ⟨hb, he⟩ | ⟨hb, n', o, ho, hw, hs⟩
  · rcases step_refines hm op with ⟨hb', he'⟩ | ⟨hb', -⟩
    · exact Or.inl ⟨hb, he', he⟩
    · exact absurd hb hb'
  · rcases step_refines hm op with ⟨hb', he'⟩ | ⟨hb', m', o', ho', hw', hs'⟩
    · exact absurd hb' hb
    · right
      have hf := specOp_frame ha hb hj hs hR (fun p hp => gap_exists hn hp)
        (by rw [← hmn]; exact fun p hp => gap_exists hm hp)
      rw [← hmn] at hf
      have hdet := C20_reference_machine_deterministic (Or.inr ⟨hb, _, rfl, hs'⟩) (Or.inr ⟨hb, _, rfl, hf⟩)
      obtain ⟨hS, hO⟩ := hdet
      cases hO
      refine ⟨m', n', _, ho', ho, hw', hw, hS, fun e he p hp => ?_⟩
      by_contra hc
      rw [not_or] at hc
      exact specOp_uncovered hs (p := p) hc.2 (fun hi => hc.1 (inserts_arg ha hi)) ⟨e, he, hp⟩

section Clients
variable {ι : Type} [DecidableEq ι]

theorem run_clients [BEq V] {J : Prop} (region : ι → Interval I) (hv : ∀ c, Valid (region c))
    (hsep : ∀ c d, c ≠ d → ¬ NearIf J (region c) (region d)) (sched : List (ι × Op I K V))
    (hw : ∀ x ∈ sched, x.2.Within (region x.1)) (hj : ∀ x ∈ sched, x.2.Joins → J) {m : NoditMap K V} {part : ι → NoditMap K V} {R : Set (K × V)}
    (hm : WF m.iter) (hp : ∀ c, WF (part c).iter)
    (hR : ∀ e ∈ R, ∀ c, ¬ NearIf J e.1 (region c))
    (hpart : ∀ c, ∀ e ∈ (part c).iter, ∀ d, d ≠ c → ¬ NearIf J e.1 (region d))
    (hS : ∀ e, e ∈ m.iter ↔ e ∈ R ∨ ∃ c, e ∈ (part c).iter) :
    (∀ c, own c ((sched.map Prod.fst).zip (m.run (sched.map Prod.snd)).2) = ((part c).run (own c sched)).2) ∧
    WF (m.run (sched.map Prod.snd)).1.iter ∧
    ∀ e, e ∈ (m.run (sched.map Prod.snd)).1.iter ↔ e ∈ R ∨ ∃ c, e ∈ ((part c).run (own c sched)).1.iter := by
  induction sched generalizing m part with
  | nil => exact ⟨fun c => rfl, hm, hS⟩
  | cons x sched ih =>
    obtain ⟨i, op⟩ := x
    obtain ⟨a, ha, hsub⟩ := hw _ List.mem_cons_self
    replace hw := fun x hx => hw x (List.mem_cons_of_mem _ hx)
    have hjop := hj _ List.mem_cons_self
    replace hj := fun x hx => hj x (List.mem_cons_of_mem _ hx)
    set R' : Set (K × V) := {e | e ∈ R ∨ ∃ c, c ≠ i ∧ e ∈ (part c).iter} with hR'
    have hfar : Valid a → ∀ e ∈ R', ¬ NearIf J e.1 a := by
      rintro hva e he hn
      have hval : Valid e.1 := by
        refine hm.1 e ((hS e).2 ?_)
        rcases he with he | ⟨c, -, he⟩
        · exact Or.inl he
        · exact Or.inr ⟨c, he⟩
      have hni : ¬ NearIf J e.1 (region i) := by
        rcases he with he | ⟨c, hc, he⟩
        · exact hR e he i
        · exact hpart c e he i (Ne.symm hc)
      refine not_nearIf_of_cover hva hval (fun p hpa => ⟨region i, hsub p hpa, fun h => hni (nearIf_comm.1 h)⟩) (nearIf_comm.1 hn)
    have hmn : m.entrySet = (part i).entrySet ∪ R' := by
      ext e
      refine (hS e).trans ?_
      constructor
      · rintro (h | ⟨c, h⟩)
        · exact Or.inr (Or.inl h)
        · by_cases hc : c = i
          · subst hc; exact Or.inl h
          · exact Or.inr (Or.inr ⟨c, hc, h⟩)
      · rintro (h | h | ⟨c, -, h⟩)
        · exact Or.inr ⟨i, h⟩
        · exact Or.inl h
        · exact Or.inr ⟨c, h⟩
    have hcase : (op.Bad ∧ m.step op = .error .invalidInterval ∧ (part i).step op = .error .invalidInterval) ∨
        (Valid a ∧ ∃ m' n' o, m.step op = .ok (m', o) ∧ (part i).step op = .ok (n', o) ∧ WF m'.iter ∧ WF n'.iter ∧
          m'.entrySet = n'.entrySet ∪ R' ∧
          ∀ e ∈ n'.iter, ∀ p, Mem p e.1 → Mem p a ∨ ∃ f ∈ (part i).iter, Mem p f.1) := by
      by_cases hb : op.Bad
      · left
        rcases step_refines hm op with ⟨-, he⟩ | ⟨h, -⟩
        · rcases step_refines (hp i) op with ⟨-, he'⟩ | ⟨h, -⟩
          · exact ⟨hb, he, he'⟩
          · exact absurd hb h
        · exact absurd hb h
      · rcases step_frame hm (hp i) hmn ha hjop (hfar (arg_valid ha hb)) with ⟨h, -⟩ | h
        · exact absurd h hb
        · exact Or.inr ⟨arg_valid ha hb, h⟩
    have own_ne : ∀ {α : Type} {c : ι} (y : α) (l : List (ι × α)), c ≠ i → own c ((i, y) :: l) = own c l := by
      intro α c y l hc
      simp [own, Ne.symm hc]
    have own_eq : ∀ {α : Type} (y : α) (l : List (ι × α)), own i ((i, y) :: l) = y :: own i l := by
      intro α y l; simp [own]
    rcases hcase with ⟨-, h1, h2⟩ | ⟨hva, m', n', o, h1, h2, hwm, hwn, hS', hcov⟩
    · obtain ⟨ih1, ih2, ih3⟩ := ih hw hj hm hp hpart hS
      simp only [List.map_cons, run, h1, List.zip_cons_cons]
      refine ⟨fun c => ?_, ih2, fun e => (ih3 e).trans (or_congr_right (exists_congr fun c => ?_))⟩
      · by_cases hc : c = i
        · subst hc
          rw [own_eq, own_eq]; simp only [run, h2]
          rw [ih1]
        · rw [own_ne _ _ hc, own_ne _ _ hc, ih1]
      · by_cases hc : c = i
        · subst hc
          rw [own_eq]; simp only [run, h2]
        · rw [own_ne _ _ hc]
    · have hpart' : ∀ c, ∀ e ∈ (Function.update part i n' c).iter, ∀ d, d ≠ c → ¬ NearIf J e.1 (region d) := by
        intro c e he d hd
        by_cases hc : c = i
        · subst hc
          rw [Function.update_self] at he
          refine not_nearIf_of_cover (hwn.1 e he) (hv d) (fun p hpe => ?_)
          rcases hcov e he p hpe with h | ⟨f, hf, hpf⟩
          · exact ⟨region c, hsub p h, hsep c d (Ne.symm hd)⟩
          · exact ⟨⟨start f.1, stop f.1⟩, hpf, hpart c f hf d hd⟩
        · rw [Function.update_of_ne hc] at he
          exact hpart c e he d hd
      have hp' : ∀ c, WF (Function.update part i n' c).iter := by
        intro c
        by_cases hc : c = i
        · subst hc; rw [Function.update_self]; exact hwn
        · rw [Function.update_of_ne hc]; exact hp c
      have hSn : ∀ e, e ∈ m'.iter ↔ e ∈ R ∨ ∃ c, e ∈ (Function.update part i n' c).iter := by
        intro e
        have : e ∈ m'.iter ↔ e ∈ n'.entrySet ∪ R' := by rw [← hS']; exact Iff.rfl
        rw [this]
        constructor
        · rintro (h | h | ⟨c, hc, h⟩)
          · exact Or.inr ⟨i, by rw [Function.update_self]; exact h⟩
          · exact Or.inl h
          · exact Or.inr ⟨c, by rw [Function.update_of_ne hc]; exact h⟩
        · rintro (h | ⟨c, h⟩)
          · exact Or.inr (Or.inl h)
          · by_cases hc : c = i
            · subst hc; rw [Function.update_self] at h; exact Or.inl h
            · rw [Function.update_of_ne hc] at h; exact Or.inr (Or.inr ⟨c, hc, h⟩)
      obtain ⟨ih1, ih2, ih3⟩ := ih hw hj hwm hp' hpart' hSn
      simp only [List.map_cons, run, h1, List.zip_cons_cons]
      refine ⟨fun c => ?_, ih2, fun e => (ih3 e).trans (or_congr_right (exists_congr fun c => ?_))⟩
      · by_cases hc : c = i
        · subst hc
          rw [own_eq, own_eq]; simp only [run, h2]
          rw [ih1, Function.update_self]
        · rw [own_ne _ _ hc, own_ne _ _ hc, ih1, Function.update_of_ne hc]
      · by_cases hc : c = i
        · subst hc
          rw [own_eq, Function.update_self]; simp only [run, h2]
        · rw [own_ne _ _ hc, Function.update_of_ne hc]

/-- the entries near the regions, and the others -/
theorem split_by_region {J : Prop} {region : ι → Interval I} {m : NoditMap K V} (h : WF m.iter)
    (hm : ∀ e ∈ m.iter, ∀ c d, NearIf J e.1 (region c) → NearIf J e.1 (region d) → c = d) :
    ∃ (part : ι → NoditMap K V) (R : Set (K × V)), (∀ c, WF (part c).iter) ∧ (∀ e ∈ R, ∀ c, ¬ NearIf J e.1 (region c)) ∧
      (∀ c, ∀ e ∈ (part c).iter, ∀ d, d ≠ c → ¬ NearIf J e.1 (region d)) ∧
      ∀ e, e ∈ m.iter ↔ e ∈ R ∨ ∃ c, e ∈ (part c).iter := by
  classical
  refine ⟨fun c => ⟨m.iter.filter fun e => NearIf J e.1 (region c)⟩, {e | e ∈ m.iter ∧ ∀ c, ¬ NearIf J e.1 (region c)}, ?_, ?_, ?_, ?_⟩
  · intro c
    exact ⟨fun e he => h.1 e (List.mem_of_mem_filter he), h.2.filter _⟩
  · exact fun e he => he.2
  · intro c e he d hd hn
    have := List.mem_filter.1 he
    exact hd (hm e this.1 d c hn (by simpa using this.2))
  · intro e
    simp only [iter, List.mem_filter, decide_eq_true_eq, Set.mem_ofPred_eq]
    constructor
    · intro he
      by_cases hc : ∃ c, NearIf J e.1 (region c)
      · obtain ⟨c, hc⟩ := hc; exact Or.inr ⟨c, he, hc⟩
      · exact Or.inl ⟨he, fun c h => hc ⟨c, h⟩⟩
    · rintro (h | ⟨c, h, -⟩)
      · exact h.1
      · exact h

theorem run_length [BEq V] (ops : List (Op I K V)) (m : NoditMap K V) : (m.run ops).2.length = ops.length := by
  induction ops generalizing m with
  | nil => rfl
  | cons op ops ih =>
    simp only [run]
    cases m.step op with
    | error p => simp [ih]
    | ok r => simp [ih]

theorem clients_if [BEq V] {J : Prop} {m : NoditMap K V} (h : WF m.iter) (region : ι → Interval I)
    (hv : ∀ c, Valid (region c)) (hsep : ∀ c d, c ≠ d → ¬ NearIf J (region c) (region d))
    (hm : ∀ e ∈ m.iter, ∀ c d, NearIf J e.1 (region c) → NearIf J e.1 (region d) → c = d)
    (sched : List (ι × Op I K V)) (hw : ∀ x ∈ sched, x.2.Within (region x.1)) (hj : ∀ x ∈ sched, x.2.Joins → J) (c : ι) :
    own c ((sched.map Prod.fst).zip (m.run (sched.map Prod.snd)).2) = (m.run (own c sched)).2 := by
  obtain ⟨part, R, h1, h2, h3, h4⟩ := split_by_region h hm
  rw [(run_clients region hv hsep sched hw hj h h1 h2 h3 h4).1 c]
  have hw' : ∀ x ∈ (own c sched).map (fun op => (c, op)), x.2.Within (region x.1) := by
    intro x hx
    obtain ⟨op, hop, rfl⟩ := List.mem_map.1 hx
    obtain ⟨y, hy, hyo⟩ := List.mem_filterMap.1 hop
    split_ifs at hyo with hc
    cases hyo
    exact hc ▸ hw y hy
  have hj' : ∀ x ∈ (own c sched).map (fun op => (c, op)), x.2.Joins → J := by
    intro x hx
    obtain ⟨op, hop, rfl⟩ := List.mem_map.1 hx
    obtain ⟨y, hy, hyo⟩ := List.mem_filterMap.1 hop
    split_ifs at hyo with hc
    cases hyo
    exact hj y hy
  have hown : ∀ {α : Type} (l : List α), own c (l.map (fun x => (c, x))) = l := by
    intro α l
    simp [own, List.filterMap_map]
  have hzip : ∀ {α β : Type} (l : List α) (l' : List β), l'.length = l.length →
      (l.map (fun _ => c)).zip l' = l'.map (fun x => (c, x)) := by
    intro α β l
    induction l with
    | nil => intro l' hl; cases l' <;> simp_all
    | cons x l ih => intro l' hl; cases l' <;> simp_all
  have hmain := (run_clients region hv hsep _ hw' hj' h h1 h2 h3 h4).1 c
  rw [hown] at hmain
  rw [← hmain]
  simp only [List.map_map, Function.comp_def, List.map_id']
  rw [hzip _ _ (run_length _ _), hown]

theorem schedules_if [BEq V] {J : Prop} {m : NoditMap K V} (h : WF m.iter) (region : ι → Interval I)
    (hv : ∀ c, Valid (region c)) (hsep : ∀ c d, c ≠ d → ¬ NearIf J (region c) (region d))
    (hm : ∀ e ∈ m.iter, ∀ c d, NearIf J e.1 (region c) → NearIf J e.1 (region d) → c = d)
    (sched sched' : List (ι × Op I K V)) (hw : ∀ x ∈ sched, x.2.Within (region x.1))
    (hw' : ∀ x ∈ sched', x.2.Within (region x.1)) (hj : ∀ x ∈ sched, x.2.Joins → J) (hj' : ∀ x ∈ sched', x.2.Joins → J)
    (heq : ∀ c, own c sched = own c sched') :
    (m.run (sched.map Prod.snd)).1 = (m.run (sched'.map Prod.snd)).1 := by
  obtain ⟨part, R, h1, h2, h3, h4⟩ := split_by_region h hm
  obtain ⟨-, hwf, hi⟩ := run_clients region hv hsep sched hw hj h h1 h2 h3 h4
  obtain ⟨-, hwf', hi'⟩ := run_clients region hv hsep sched' hw' hj' h h1 h2 h3 h4
  refine NoditMap.ext_entries hwf hwf' fun e => ?_
  rw [hi, hi']
  simp only [heq]

/-- **C93**: several clients share a map. Each client works on its own region - every call it makes takes an interval, or a
point, within the region, valid or not - the regions neither overlap nor touch, and no entry is near two of them. Then, for
every schedule of the clients' calls, every client gets exactly the results it would get if the other clients did not exist. -/
theorem C93_clients_do_not_observe_each_other [BEq V] {m : NoditMap K V} (h : WF m.iter) (region : ι → Interval I)
    (hv : ∀ c, Valid (region c)) (hsep : ∀ c d, c ≠ d → ¬ Near (region c) (region d))
    (hm : ∀ e ∈ m.iter, ∀ c d, Near e.1 (region c) → Near e.1 (region d) → c = d)
    (sched : List (ι × Op I K V)) (hw : ∀ x ∈ sched, x.2.Within (region x.1)) (c : ι) :
    own c ((sched.map Prod.fst).zip (m.run (sched.map Prod.snd)).2) = (m.run (own c sched)).2 :=
  clients_if (J := True) h region hv (fun c d hcd => by rw [nearIf_true]; exact hsep c d hcd)
    (fun e he c d h1 h2 => hm e he c d (nearIf_true.1 h1) (nearIf_true.1 h2)) sched hw (fun _ _ _ => trivial) c

/-- **C93**: and the map the clients leave behind is the same for all schedules. -/
theorem C93_all_schedules_agree [BEq V] {m : NoditMap K V} (h : WF m.iter) (region : ι → Interval I)
    (hv : ∀ c, Valid (region c)) (hsep : ∀ c d, c ≠ d → ¬ Near (region c) (region d))
    (hm : ∀ e ∈ m.iter, ∀ c d, Near e.1 (region c) → Near e.1 (region d) → c = d)
    (sched sched' : List (ι × Op I K V)) (hw : ∀ x ∈ sched, x.2.Within (region x.1))
    (hw' : ∀ x ∈ sched', x.2.Within (region x.1)) (heq : ∀ c, own c sched = own c sched') :
    (m.run (sched.map Prod.snd)).1 = (m.run (sched'.map Prod.snd)).1 :=
  schedules_if (J := True) h region hv (fun c d hcd => by rw [nearIf_true]; exact hsep c d hcd)
    (fun e he c d h1 h2 => hm e he c d (nearIf_true.1 h1) (nearIf_true.1 h2)) sched sched' hw hw' (fun _ _ _ => trivial)
    (fun _ _ _ => trivial) heq

/-- **C93**: if no client uses the inserts that join touching entries, it is enough that the regions share no point and no entry
overlaps two of them; they may touch. -/
theorem C93_touching_regions [BEq V] {m : NoditMap K V} (h : WF m.iter) (region : ι → Interval I)
    (hv : ∀ c, Valid (region c)) (hsep : ∀ c d, c ≠ d → ¬ Overlap (region c) (region d))
    (hm : ∀ e ∈ m.iter, ∀ c d, Overlap e.1 (region c) → Overlap e.1 (region d) → c = d)
    (sched sched' : List (ι × Op I K V)) (hw : ∀ x ∈ sched, x.2.Within (region x.1))
    (hw' : ∀ x ∈ sched', x.2.Within (region x.1)) (hj : ∀ x ∈ sched, ¬ x.2.Joins) (heq : ∀ c, own c sched = own c sched') :
    (∀ c, own c ((sched.map Prod.fst).zip (m.run (sched.map Prod.snd)).2) = (m.run (own c sched)).2) ∧
    (m.run (sched.map Prod.snd)).1 = (m.run (sched'.map Prod.snd)).1 := by
  have hsep' : ∀ c d, c ≠ d → ¬ NearIf False (region c) (region d) := fun c d hcd => by rw [nearIf_false]; exact hsep c d hcd
  have hm' : ∀ e ∈ m.iter, ∀ c d, NearIf False e.1 (region c) → NearIf False e.1 (region d) → c = d :=
    fun e he c d h1 h2 => hm e he c d (nearIf_false.1 h1) (nearIf_false.1 h2)
  refine ⟨fun c => clients_if h region hv hsep' hm' sched hw hj c, schedules_if h region hv hsep' hm' sched sched' hw hw' hj ?_ heq⟩
  rintro ⟨c, op⟩ hx hjo
  have : op ∈ own c sched' := List.mem_filterMap.2 ⟨(c, op), hx, by simp⟩
  rw [← heq c] at this
  obtain ⟨⟨d, op'⟩, hy, hyo⟩ := List.mem_filterMap.1 this
  split_ifs at hyo
  cases hyo
  exact hj _ hy hjo

end Clients

/-! ## Instances -/

/-- a history that overwrites, cuts, merges and removes around the entry `13..=15 ↦ 9` of the demo map -/
def Demo.around : List (Op Demo.U8 (Interval Demo.U8) Nat) :=
  [.insertMergeTouching (Demo.iv 5 9) 2, .cut (Demo.iv 11 12), .insertStrict (Demo.iv 12 12) 4, .insertStrict (Demo.iv 14 14) 1,
   .removeOverlapping (Demo.iv 18 200), .iter, .insertMergeTouchingIfValuesEqual (Demo.iv 16 17) 6]

theorem Demo.not_overlap {a b c d : Int} (h : (Demo.u8 b < Demo.u8 c ∨ Demo.u8 d < Demo.u8 a)) :
    ¬ Overlap (Demo.iv a b) (Demo.iv c d) := by
  rintro ⟨p, ⟨h1, h2⟩, h3, h4⟩
  rcases h with h | h
  · exact absurd (le_trans h3 h2) (not_le.2 h)
  · exact absurd (le_trans h1 h4) (not_le.2 h)

example : (Demo.iv 13 15, 9) ∈ (Demo.m.run Demo.around).1.iter := by
  refine C92_unaffected_entry_stays (C01_invariant Demo.ops) _ (by decide) ?_
  intro op hop
  simp only [Demo.around, List.mem_cons, List.not_mem_nil, or_false] at hop
  rcases hop with rfl | rfl | rfl | rfl | rfl | rfl | rfl
  · intro h
    refine (h.2 (Demo.u8 11)).2 ⟨fun y hy => lt_of_le_of_lt hy.2 (by decide), fun y hy => lt_of_lt_of_le (by decide) hy.1⟩
  · exact Demo.not_overlap (by decide)
  · exact id
  · exact id
  · exact Demo.not_overlap (by decide)
  · exact id
  · exact fun h => absurd h.2 (by decide)

example : (Demo.m.run Demo.around).1.iter =
    [(Demo.iv 0 1, 7), (Demo.iv 3 10, 2), (Demo.iv 12 12, 4), (Demo.iv 13 15, 9), (Demo.iv 16 17, 6),
     (Demo.iv 250 255, 1)] := by decide

/-- two clients: `false` works on `0..=30`, `true` on `100..=255` -/
def Demo.region (c : Bool) : Interval Demo.U8 := if c then Demo.iv 100 255 else Demo.iv 0 30

/-- their calls, one of them with an interval that contains no point -/
def Demo.sched : List (Bool × Op Demo.U8 (Interval Demo.U8) Nat) :=
  [(false, .cut (Demo.iv 1 11)), (true, .insertMergeTouching (Demo.iv 240 249) 5), (false, .gapsTrimmed (Demo.iv 0 30)),
   (true, .cut (Demo.iv 9 5)), (false, .insertMergeTouchingOrOverlapping (Demo.iv 21 30) 3), (true, .getAtPoint (Demo.u8 255))]

theorem Demo.region_valid (c : Bool) : Valid (Demo.region c) := by
  cases c
  · exact ⟨Demo.u8 0, by decide, by decide⟩
  · exact ⟨Demo.u8 200, by decide, by decide⟩

theorem Demo.regions_apart : ∀ c d, c ≠ d → ¬ Near (Demo.region c) (Demo.region d) := by
  intro c d hcd
  rw [near_iff (Demo.region_valid c) (Demo.region_valid d), not_not]
  cases c <;> cases d
  · exact absurd rfl hcd
  · exact ⟨Demo.u8 60, by decide⟩
  · exact ⟨Demo.u8 60, by decide⟩
  · exact absurd rfl hcd

theorem Demo.entries_apart : ∀ e ∈ Demo.m.iter, ∀ c d, Near e.1 (Demo.region c) → Near e.1 (Demo.region d) → c = d := by
  intro e he c d h1 h2
  have hv := (C01_invariant Demo.ops).1 e he
  rw [near_iff hv (Demo.region_valid _)] at h1 h2
  by_contra hcd
  have hside : (stop e.1 < Demo.u8 99) ∨ (Demo.u8 31 < start e.1) := by
    have : ∀ e ∈ Demo.m.iter, (stop e.1 < Demo.u8 99) ∨ (Demo.u8 31 < start e.1) := by decide
    exact this e he
  have hfalse : (Demo.u8 31 < start e.1) → ∃ p, (stop e.1 < p ∧ p < start (Demo.region false)) ∨ (stop (Demo.region false) < p ∧ p < start e.1) :=
    fun h => ⟨Demo.u8 31, Or.inr ⟨by decide, h⟩⟩
  have htrue : (stop e.1 < Demo.u8 99) → ∃ p, (stop e.1 < p ∧ p < start (Demo.region true)) ∨ (stop (Demo.region true) < p ∧ p < start e.1) :=
    fun h => ⟨Demo.u8 99, Or.inl ⟨h, by decide⟩⟩
  cases c <;> cases d
  · exact hcd rfl
  · rcases hside with h | h
    · exact h2 (htrue h)
    · exact h1 (hfalse h)
  · rcases hside with h | h
    · exact h1 (htrue h)
    · exact h2 (hfalse h)
  · exact hcd rfl

theorem Demo.sched_within : ∀ x ∈ Demo.sched, x.2.Within (Demo.region x.1) := by
  have hsub : ∀ (i r : Interval Demo.U8), (start r ≤ start i ∧ stop i ≤ stop r) ∨ stop i < start i → ∀ p, Mem p i → Mem p r := by
    rintro i r (h | h) p hp
    · exact ⟨le_trans h.1 hp.1, le_trans hp.2 h.2⟩
    · exact absurd (le_trans hp.1 hp.2) (not_le.2 h)
  intro x hx
  simp only [Demo.sched, List.mem_cons, List.not_mem_nil, or_false] at hx
  rcases hx with rfl | rfl | rfl | rfl | rfl | rfl <;> exact ⟨_, rfl, hsub _ _ (by decide)⟩

/-- client `false`, run alone, and in the schedule -/
example : own false ((Demo.sched.map Prod.fst).zip (Demo.m.run (Demo.sched.map Prod.snd)).2) =
    (Demo.m.run [.cut (Demo.iv 1 11), .gapsTrimmed (Demo.iv 0 30), .insertMergeTouchingOrOverlapping (Demo.iv 21 30) 3]).2 :=
  C93_clients_do_not_observe_each_other (C01_invariant Demo.ops) Demo.region Demo.region_valid Demo.regions_apart
    Demo.entries_apart Demo.sched Demo.sched_within false

/-- the other way round -/
example : (Demo.m.run (Demo.sched.map Prod.snd)).1 =
    (Demo.m.run ((own true Demo.sched) ++ own false Demo.sched)).1 := by
  have h := C93_all_schedules_agree (C01_invariant Demo.ops) Demo.region Demo.region_valid Demo.regions_apart
    Demo.entries_apart Demo.sched
    ((own true Demo.sched).map (fun op => (true, op)) ++ (own false Demo.sched).map (fun op => (false, op)))
    Demo.sched_within (by
      have := Demo.sched_within
      simp only [Demo.sched, own, List.mem_cons, List.not_mem_nil, or_false, forall_eq_or_imp, forall_eq] at this ⊢
      simp
      tauto)
    (by intro c; cases c <;> rfl)
  simp only [List.map_append, List.map_map, Function.comp_def, List.map_id'] at h
  exact h

/-- The regions may not touch: after `0..=4` is inserted by one client, the other client's insert of `5..=9` is merged with
it, and reports so. -/
example :
    let own := (new : NoditMap (Interval Demo.U8) Nat).run [.insertMergeTouching (Demo.iv 5 9) 1]
    let shared := (new : NoditMap (Interval Demo.U8) Nat).run [.insertStrict (Demo.iv 0 4) 0, .insertMergeTouching (Demo.iv 5 9) 1]
    own.2 = [.ok (.merge (.ok (Demo.iv 5 9)))] ∧ shared.2 = [.ok (.strict (.ok ())), .ok (.merge (.ok (Demo.iv 0 9)))] := by
  exact ⟨rfl, rfl⟩

/-- two clients on touching regions: `false` works on `0..=49`, `true` on `50..=255` -/
def Demo.touching (c : Bool) : Interval Demo.U8 := if c then Demo.iv 50 255 else Demo.iv 0 49

/-- their calls: entries end exactly where the regions meet -/
def Demo.touchSched : List (Bool × Op Demo.U8 (Interval Demo.U8) Nat) :=
  [(false, .insertStrict (Demo.iv 40 49) 1), (true, .insertStrict (Demo.iv 50 60) 2), (false, .insertMergeOverlapping (Demo.iv 30 41) 3),
   (true, .gapsTrimmed (Demo.iv 50 255)), (true, .insertOverwrite (Demo.iv 50 50) 4), (false, .cut (Demo.iv 49 49))]

theorem Demo.touching_valid (c : Bool) : Valid (Demo.touching c) := by
  cases c
  · exact ⟨Demo.u8 0, by decide, by decide⟩
  · exact ⟨Demo.u8 200, by decide, by decide⟩

theorem Demo.touching_disjoint : ∀ c d, c ≠ d → ¬ Overlap (Demo.touching c) (Demo.touching d) := by
  intro c d hcd
  cases c <;> cases d
  · exact absurd rfl hcd
  · exact Demo.not_overlap (by decide)
  · exact Demo.not_overlap (by decide)
  · exact absurd rfl hcd

theorem Demo.touch_entries : ∀ e ∈ Demo.m.iter, ∀ c d, Overlap e.1 (Demo.touching c) → Overlap e.1 (Demo.touching d) → c = d := by
  have hside : ∀ e ∈ Demo.m.iter, (stop e.1 < Demo.u8 50) ∨ (Demo.u8 49 < start e.1) := by decide
  intro e he c d h1 h2
  have hf : Overlap e.1 (Demo.touching false) → Overlap e.1 (Demo.touching true) → False := by
    rintro ⟨p, hp, hp'⟩ ⟨q, hq, hq'⟩
    rcases hside e he with h | h
    · exact absurd (le_trans hq'.1 hq.2) (not_le.2 h)
    · exact absurd (le_trans hp.1 hp'.2) (not_le.2 h)
  cases c <;> cases d
  · rfl
  · exact (hf h1 h2).elim
  · exact (hf h2 h1).elim
  · rfl

theorem Demo.touch_within : ∀ x ∈ Demo.touchSched, x.2.Within (Demo.touching x.1) := by
  have hsub : ∀ (i r : Interval Demo.U8), start r ≤ start i ∧ stop i ≤ stop r → ∀ p, Mem p i → Mem p r :=
    fun i r h p hp => ⟨le_trans h.1 hp.1, le_trans hp.2 h.2⟩
  intro x hx
  simp only [Demo.touchSched, List.mem_cons, List.not_mem_nil, or_false] at hx
  rcases hx with rfl | rfl | rfl | rfl | rfl | rfl <;> exact ⟨_, rfl, hsub _ _ (by decide)⟩

theorem Demo.touch_noJoins : ∀ x ∈ Demo.touchSched, ¬ x.2.Joins := by
  intro x hx
  simp only [Demo.touchSched, List.mem_cons, List.not_mem_nil, or_false] at hx
  rcases hx with rfl | rfl | rfl | rfl | rfl | rfl <;> exact id

/-- client `true`, in the schedule and alone -/
example : own true ((Demo.touchSched.map Prod.fst).zip (Demo.m.run (Demo.touchSched.map Prod.snd)).2) =
    (Demo.m.run [.insertStrict (Demo.iv 50 60) 2, .gapsTrimmed (Demo.iv 50 255), .insertOverwrite (Demo.iv 50 50) 4]).2 :=
  (C93_touching_regions (C01_invariant Demo.ops) Demo.touching Demo.touching_valid Demo.touching_disjoint Demo.touch_entries
    Demo.touchSched Demo.touchSched Demo.touch_within Demo.touch_within Demo.touch_noJoins (fun _ => rfl)).1 true

example : (Demo.m.run [.insertStrict (Demo.iv 50 60) 2, .gapsTrimmed (Demo.iv 50 255), .insertOverwrite (Demo.iv 50 50) 4]).2 =
    [.ok (.strict (.ok ())), .ok (.keys [Demo.iv 61 249]), .ok (.entries [(Demo.iv 50 50, 2)])] := rfl

end Nodit
