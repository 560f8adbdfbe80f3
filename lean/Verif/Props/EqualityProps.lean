import Verif.Equality
import Verif.Props.Parametric
import Verif.Props.ZosditExact
import Verif.Props.Algebra
import Verif.Props.SetProps
import Verif.Props.GqditProps
import Verif.Serde
/-!
# C89: `==` on the containers

Equality is what the elements' equalities make of it, it is an equivalence, and equal containers cannot be told apart by any
further calls. The proofs use C87/C88: a container whose keys and values are replaced by their equivalence classes goes through
the same history.
-/
set_option linter.unusedSectionVars false
namespace Nodit
open Spec PointType InclusiveInterval

/-- the two lists have the same length and equal (by the user's `==`) entries in the same places -/
def Spec.SameEntries {K A : Type} [BEq K] [BEq A] (l l' : List (K × A)) : Prop :=
  List.Forall₂ (fun e e' => (e.1 == e'.1) = true ∧ (e.2 == e'.2) = true) l l'

section
variable {I K V D : Type} [PointType I] [IntervalType I K] [BEq K] [BEq V] [DecidableEq D]

omit [PointType I] [IntervalType I K] [BEq V] in
theorem entriesEqual_iff {A : Type} [BEq A] (l l' : List (K × A)) : entriesEqual l l' = true ↔ SameEntries l l' := by
  unfold entriesEqual SameEntries
  induction l generalizing l' with
  | nil => cases l' <;> simp
  | cons e l ih =>
    cases l' with
    | nil => simp
    | cons e' l' =>
      rw [List.forall₂_cons, ← ih]
      simp only [List.length_cons, List.zip_cons_cons, List.all_cons, Bool.and_eq_true, beq_iff_eq]
      constructor
      · rintro ⟨h1, ⟨h2, h3⟩, h4⟩; exact ⟨⟨h2, h3⟩, by omega, h4⟩
      · rintro ⟨⟨h2, h3⟩, h1, h4⟩; exact ⟨by omega, ⟨h2, h3⟩, h4⟩

/-! ## Equivalence classes -/

/-- the equivalence of a lawful `==` -/
def beqSetoid (A : Type) [BEq A] [EquivBEq A] : Setoid A where
  r a b := (a == b) = true
  iseqv := ⟨fun a => BEq.rfl, fun h => BEq.symm h, fun h h' => BEq.trans h h'⟩

/-- the class of an element -/
def cls {A : Type} [BEq A] [EquivBEq A] (a : A) : Quotient (beqSetoid A) := Quotient.mk _ a

theorem cls_eq {A : Type} [BEq A] [EquivBEq A] {a b : A} : cls a = cls b ↔ (a == b) = true := Quotient.eq (r := beqSetoid A)

instance {A : Type} [BEq A] [EquivBEq A] : BEq (Quotient (beqSetoid A)) :=
  ⟨Quotient.lift₂ (fun a b => a == b) fun a b a' b' (h : (a == a') = true) (h' : (b == b') = true) => by
    rw [Bool.eq_iff_iff]
    exact ⟨fun e => BEq.trans (BEq.symm h) (BEq.trans e h'), fun e => BEq.trans h (BEq.trans e (BEq.symm h'))⟩⟩

/-- keys that are equal have the same ends -/
class EqKeepsEnds (I K : Type) [IntervalType I K] [BEq K] : Prop where
  ends : ∀ a b : K, (a == b) = true → start a = start b ∧ stop a = stop b

variable [EquivBEq K] [EquivBEq V]

instance clsInterval [EqKeepsEnds I K] : IntervalType I (Quotient (beqSetoid K)) where
  start := Quotient.lift start fun a b h => (EqKeepsEnds.ends (I := I) a b h).1
  stop := Quotient.lift stop fun a b h => (EqKeepsEnds.ends (I := I) a b h).2
  ofInterval i := cls (ofInterval i)

omit [PointType I] in
theorem keeps_cls [EqKeepsEnds I K] : KeepsInterval (fun _ : Interval I => True) (cls : K → Quotient (beqSetoid K)) where
  start_eq _ := rfl
  stop_eq _ := rfl
  of_eq _ _ := rfl

omit [PointType I] [IntervalType I K] in
theorem sameEntries_map {A B : Type} [BEq A] {ψ : A → B} (hψ : ∀ a b, (a == b) = true ↔ ψ a = ψ b) {l l' : List (K × A)} :
    SameEntries l l' ↔ l.map (Prod.map cls ψ) = l'.map (Prod.map cls ψ) := by
  unfold SameEntries
  induction l generalizing l' with
  | nil => cases l' <;> simp
  | cons e l ih =>
    cases l' with
    | nil => simp
    | cons e' l' => rw [List.forall₂_cons, ih, List.map_cons, List.map_cons, List.cons.injEq, Prod.map, Prod.map, Prod.mk.injEq, cls_eq, hψ]

omit [PointType I] [IntervalType I K] in
theorem sameEntries_cls {l l' : List (K × V)} : SameEntries l l' ↔ l.map (Prod.map cls cls) = l'.map (Prod.map cls cls) :=
  sameEntries_map fun _ _ => cls_eq.symm

omit [BEq K] [EquivBEq K] [PointType I] [IntervalType I K] in
theorem list_cls (l l' : List V) : (l == l') = true ↔ l.map cls = l'.map cls := by
  induction l generalizing l' with
  | nil => cases l' <;> simp
  | cons e l ih => cases l' <;> simp [cls_eq, ih]
end

/-! ## Calls with equal arguments, and equal results -/
namespace Spec
variable {I K V : Type} [BEq K] [BEq V]

/-- closures that give equal values for equal arguments -/
def Respects (f f' : K → V → V) : Prop := ∀ k k' v v', (k == k') = true → (v == v') = true → (f k v == f' k' v') = true

/-- the same call with equal arguments -/
inductive Op.Equal : Op I K V → Op I K V → Prop
  | insertStrict {k k' v v'} : (k == k') = true → (v == v') = true → Equal (.insertStrict k v) (.insertStrict k' v')
  | insertMergeTouching {k k' v v'} : (k == k') = true → (v == v') = true → Equal (.insertMergeTouching k v) (.insertMergeTouching k' v')
  | insertMergeTouchingIfValuesEqual {k k' v v'} : (k == k') = true → (v == v') = true →
    Equal (.insertMergeTouchingIfValuesEqual k v) (.insertMergeTouchingIfValuesEqual k' v')
  | insertMergeOverlapping {k k' v v'} : (k == k') = true → (v == v') = true → Equal (.insertMergeOverlapping k v) (.insertMergeOverlapping k' v')
  | insertMergeTouchingOrOverlapping {k k' v v'} : (k == k') = true → (v == v') = true →
    Equal (.insertMergeTouchingOrOverlapping k v) (.insertMergeTouchingOrOverlapping k' v')
  | insertOverwrite {k k' v v'} : (k == k') = true → (v == v') = true → Equal (.insertOverwrite k v) (.insertOverwrite k' v')
  | cut (q) : Equal (.cut q) (.cut q)
  | removeOverlapping (q) : Equal (.removeOverlapping q) (.removeOverlapping q)
  | overlapping (q) : Equal (.overlapping q) (.overlapping q)
  | overlaps (q) : Equal (.overlaps q) (.overlaps q)
  | gapsUntrimmed (q) : Equal (.gapsUntrimmed q) (.gapsUntrimmed q)
  | gapsTrimmed (q) : Equal (.gapsTrimmed q) (.gapsTrimmed q)
  | containsInterval (q) : Equal (.containsInterval q) (.containsInterval q)
  | overlappingMut (q) {f f'} : Respects f f' → Equal (.overlappingMut q f) (.overlappingMut q f')
  | getAtPoint (p) : Equal (.getAtPoint p) (.getAtPoint p)
  | getKeyValueAtPoint (p) : Equal (.getKeyValueAtPoint p) (.getKeyValueAtPoint p)
  | containsPoint (p) : Equal (.containsPoint p) (.containsPoint p)
  | getAtPointMut (p) {f f'} : (∀ v v', (v == v') = true → (f v == f' v') = true) → Equal (.getAtPointMut p f) (.getAtPointMut p f')
  | iterMut {f f'} : Respects f f' → Equal (.iterMut f) (.iterMut f')
  | iter : Equal .iter .iter
  | len : Equal .len .len
  | isEmpty : Equal .isEmpty .isEmpty
  | firstKeyValue : Equal .firstKeyValue .firstKeyValue
  | lastKeyValue : Equal .lastKeyValue .lastKeyValue

/-- equal results -/
inductive Out.Equal : Out K V → Out K V → Prop
  | unit : Equal .unit .unit
  | bool (b) : Equal (.bool b) (.bool b)
  | nat (n) : Equal (.nat n) (.nat n)
  | entries {l l'} : SameEntries l l' → Equal (.entries l) (.entries l')
  | keys {l l'} : List.Forall₂ (fun k k' => (k == k') = true) l l' → Equal (.keys l) (.keys l')
  | optValue {v v'} : Option.Rel (fun v v' => (v == v') = true) v v' → Equal (.optValue v) (.optValue v')
  | optEntry {e e'} : Option.Rel (fun e e' => (e.1 == e'.1) = true ∧ (e.2 == e'.2) = true) e e' → Equal (.optEntry e) (.optEntry e')
  | found {k k' v v'} : (k == k') = true → (v == v') = true → Equal (.lookup (.ok (k, v))) (.lookup (.ok (k', v')))
  | notFound {g g'} : (g == g') = true → Equal (.lookup (.error g)) (.lookup (.error g'))
  | inserted : Equal (.strict (.ok ())) (.strict (.ok ()))
  | refused {v v'} : (v == v') = true → Equal (.strict (.error v)) (.strict (.error v'))
  | merged {k k'} : (k == k') = true → Equal (.merge (.ok k)) (.merge (.ok k'))
  | mergeRefused {v v'} : (v == v') = true → Equal (.merge (.error v)) (.merge (.error v'))
  | key {k k'} : (k == k') = true → Equal (.key k) (.key k')

/-- both return equal results, or both panic in the same way -/
inductive ResEqual {α : Type} (R : α → α → Prop) : Res α → Res α → Prop
  | ok {a a'} : R a a' → ResEqual R (.ok a) (.ok a')
  | panic (e) : ResEqual R (.error e) (.error e)
end Spec

section
variable {I K V : Type} [PointType I] [IntervalType I K] [BEq K] [BEq V] [EquivBEq K] [EquivBEq V] [EqKeepsEnds I K]

omit [PointType I] in
/-- equal calls become one call on classes -/
theorem Spec.Op.Equal.common {op op' : Op I K V} (h : op.Equal op') :
    ∃ c : Op I (Quotient (beqSetoid K)) (Quotient (beqSetoid V)), op.Corresponds cls cls c ∧ op'.Corresponds cls cls c := by
  have lift : ∀ f f' : K → V → V, Respects f f' → ∃ F : Quotient (beqSetoid K) → Quotient (beqSetoid V) → Quotient (beqSetoid V),
      (∀ k v, F (cls k) (cls v) = cls (f k v)) ∧ ∀ k v, F (cls k) (cls v) = cls (f' k v) := by
    intro f f' hf
    have e : ∀ k v, cls (f k v) = cls (f' k v) := fun k v => cls_eq.2 (hf k k v v BEq.rfl BEq.rfl)
    refine ⟨Quotient.lift₂ (fun k v => cls (f k v)) (fun k v k' v' h h' => ?_), fun k v => rfl, fun k v => e k v⟩
    rw [e k' v']; exact cls_eq.2 (hf k k' v v' h h')
  cases h with
  | insertStrict h h' => exact ⟨_, .insertStrict _ _, cls_eq.2 h ▸ cls_eq.2 h' ▸ .insertStrict _ _⟩
  | insertMergeTouching h h' => exact ⟨_, .insertMergeTouching _ _, cls_eq.2 h ▸ cls_eq.2 h' ▸ .insertMergeTouching _ _⟩
  | insertMergeTouchingIfValuesEqual h h' =>
    exact ⟨_, .insertMergeTouchingIfValuesEqual _ _, cls_eq.2 h ▸ cls_eq.2 h' ▸ .insertMergeTouchingIfValuesEqual _ _⟩
  | insertMergeOverlapping h h' => exact ⟨_, .insertMergeOverlapping _ _, cls_eq.2 h ▸ cls_eq.2 h' ▸ .insertMergeOverlapping _ _⟩
  | insertMergeTouchingOrOverlapping h h' =>
    exact ⟨_, .insertMergeTouchingOrOverlapping _ _, cls_eq.2 h ▸ cls_eq.2 h' ▸ .insertMergeTouchingOrOverlapping _ _⟩
  | insertOverwrite h h' => exact ⟨_, .insertOverwrite _ _, cls_eq.2 h ▸ cls_eq.2 h' ▸ .insertOverwrite _ _⟩
  | cut q => exact ⟨_, .cut q, .cut q⟩
  | removeOverlapping q => exact ⟨_, .removeOverlapping q, .removeOverlapping q⟩
  | overlapping q => exact ⟨_, .overlapping q, .overlapping q⟩
  | overlaps q => exact ⟨_, .overlaps q, .overlaps q⟩
  | gapsUntrimmed q => exact ⟨_, .gapsUntrimmed q, .gapsUntrimmed q⟩
  | gapsTrimmed q => exact ⟨_, .gapsTrimmed q, .gapsTrimmed q⟩
  | containsInterval q => exact ⟨_, .containsInterval q, .containsInterval q⟩
  | overlappingMut q h => obtain ⟨F, h1, h2⟩ := lift _ _ h; exact ⟨_, .overlappingMut q h1, .overlappingMut q h2⟩
  | getAtPoint p => exact ⟨_, .getAtPoint p, .getAtPoint p⟩
  | getKeyValueAtPoint p => exact ⟨_, .getKeyValueAtPoint p, .getKeyValueAtPoint p⟩
  | containsPoint p => exact ⟨_, .containsPoint p, .containsPoint p⟩
  | @getAtPointMut p f f' h =>
    refine ⟨.getAtPointMut p (Quotient.lift (fun v => cls (f v)) fun v v' hv => ?_), .getAtPointMut p fun v => rfl, .getAtPointMut p fun v => ?_⟩
    · have := cls_eq.2 (h v v' hv); rw [this]; exact (cls_eq.2 (h v' v' BEq.rfl)).symm
    · exact cls_eq.2 (h v v BEq.rfl)
  | iterMut h => obtain ⟨F, h1, h2⟩ := lift _ _ h; exact ⟨_, .iterMut h1, .iterMut h2⟩
  | iter => exact ⟨_, .iter, .iter⟩
  | len => exact ⟨_, .len, .len⟩
  | isEmpty => exact ⟨_, .isEmpty, .isEmpty⟩
  | firstKeyValue => exact ⟨_, .firstKeyValue, .firstKeyValue⟩
  | lastKeyValue => exact ⟨_, .lastKeyValue, .lastKeyValue⟩

omit [PointType I] [IntervalType I K] [EqKeepsEnds I K] in
theorem Out.equal_of_cls {o o' : Out K V} (h : o.map cls cls = o'.map cls cls) : o.Equal o' := by
  rcases o with _ | b | n | l | l | v | e | (g | ⟨k, v⟩) | (v | u) | (v | k) | k <;>
    rcases o' with _ | b' | n' | l' | l' | v' | e' | (g' | ⟨k', v'⟩) | (v' | u') | (v' | k') | k' <;>
    simp only [Out.map, reduceCtorEq, Out.bool.injEq, Out.nat.injEq, Out.entries.injEq, Out.keys.injEq, Out.optValue.injEq,
      Out.optEntry.injEq, Out.lookup.injEq, Out.strict.injEq, Out.merge.injEq, Out.key.injEq, Except.ok.injEq, Except.error.injEq,
      Prod.map, Prod.mk.injEq, cls_eq] at h
  · exact .unit
  · subst h; exact .bool _
  · subst h; exact .nat _
  · exact .entries (sameEntries_cls.2 h)
  · refine .keys ?_
    rw [← List.forall₂_eq_eq_eq, List.forall₂_map_left_iff, List.forall₂_map_right_iff] at h
    exact h.imp fun _ _ h => cls_eq.1 h
  · refine .optValue ?_
    cases v <;> cases v' <;> simp only [Option.map_none, Option.map_some, reduceCtorEq, Option.some.injEq, cls_eq] at h
    · exact .none
    · exact .some h
  · refine .optEntry ?_
    cases e <;> cases e' <;> simp only [Option.map_none, Option.map_some, reduceCtorEq, Option.some.injEq, Prod.map, Prod.mk.injEq, cls_eq] at h
    · exact .none
    · exact .some h
  · exact .notFound h
  · exact .found h.1 h.2
  · exact .refused h
  · exact .inserted
  · exact .mergeRefused h
  · exact .merged h
  · exact .key h

omit [PointType I] [IntervalType I K] [EqKeepsEnds I K] in
theorem NoditMap.equal_iff (m m' : NoditMap K V) : m.equal m' = true ↔ m.mapEntries cls cls = m'.mapEntries cls cls := by
  rw [NoditMap.equal, entriesEqual_iff, sameEntries_cls]
  simp [NoditMap.mapEntries]

/-- **C89**: `==` of `NoditMap`s is equality of the entries in order, and an equivalence relation if `==` of the keys and of the
values is. -/
theorem C89_nodit_map_eq :
    (∀ m m' : NoditMap K V, m.equal m' = true ↔ SameEntries m.iter m'.iter) ∧
    Equivalence (fun m m' : NoditMap K V => m.equal m' = true) := by
  refine ⟨fun m m' => entriesEqual_iff _ _, ?_⟩
  simp only [NoditMap.equal_iff]
  exact ⟨fun _ => rfl, fun h => h.symm, fun h h' => h.trans h'⟩

/-- **C89**: equal `NoditMap`s cannot be told apart: after the same calls with equal arguments they have given equal results, panicked
in the same calls, and are equal again. -/
theorem C89_nodit_map_congruence {m m' : NoditMap K V} (h : m.equal m' = true) {ops ops' : List (Op I K V)}
    (ho : List.Forall₂ Op.Equal ops ops') :
    (m.run ops).1.equal (m'.run ops').1 = true ∧ List.Forall₂ (ResEqual Out.Equal) (m.run ops).2 (m'.run ops').2 := by
  have hc : ∃ c, List.Forall₂ (Op.Corresponds cls cls) ops c ∧ List.Forall₂ (Op.Corresponds cls cls) ops' c := by
    induction ho with
    | nil => exact ⟨[], .nil, .nil⟩
    | cons h _ ih =>
      obtain ⟨c, h1, h2⟩ := h.common
      obtain ⟨cs, h3, h4⟩ := ih
      exact ⟨c :: cs, .cons h1 h3, .cons h2 h4⟩
  obtain ⟨c, h1, h2⟩ := hc
  rw [NoditMap.equal_iff] at h ⊢
  have e1 := NoditMap.run_map (keeps_cls (I := I) (K := K)) (Or.inr fun i hi => absurd trivial hi) (ψ := (cls : V → _)) (Or.inr fun _ _ => rfl) h1
    (m := m) (Or.inl fun _ => trivial)
  have e2 := NoditMap.run_map (keeps_cls (I := I) (K := K)) (Or.inr fun i hi => absurd trivial hi) (ψ := (cls : V → _)) (Or.inr fun _ _ => rfl) h2
    (m := m') (Or.inl fun _ => trivial)
  rw [h, e2, Prod.mk.injEq] at e1
  refine ⟨e1.1.symm, ?_⟩
  have := e1.2.symm
  rw [← List.forall₂_eq_eq_eq, List.forall₂_map_left_iff, List.forall₂_map_right_iff] at this
  refine this.imp fun r r' hr => ?_
  cases r <;> cases r' <;> simp only [Except.map, reduceCtorEq, Except.error.injEq, Except.ok.injEq] at hr
  · subst hr; exact .panic _
  · exact .ok (Out.equal_of_cls hr)

/-! ## `NoditSet` -/

/-- the same call with equal arguments -/
inductive Spec.SetOp.Equal : SetOp I K → SetOp I K → Prop
  | insertStrict {k k'} : (k == k') = true → Equal (.insertStrict k) (.insertStrict k')
  | insertMergeTouching {k k'} : (k == k') = true → Equal (.insertMergeTouching k) (.insertMergeTouching k')
  | insertMergeOverlapping {k k'} : (k == k') = true → Equal (.insertMergeOverlapping k) (.insertMergeOverlapping k')
  | insertMergeTouchingOrOverlapping {k k'} : (k == k') = true →
    Equal (.insertMergeTouchingOrOverlapping k) (.insertMergeTouchingOrOverlapping k')
  | insertOverwrite {k k'} : (k == k') = true → Equal (.insertOverwrite k) (.insertOverwrite k')
  | cut (q) : Equal (.cut q) (.cut q)
  | removeOverlapping (q) : Equal (.removeOverlapping q) (.removeOverlapping q)

omit [PointType I] [IntervalType I K] [EqKeepsEnds I K] in
theorem NoditSet.equal_iff (s s' : NoditSet K) : s.equal s' = true ↔ s.mapEntries cls = s'.mapEntries cls := by
  rw [NoditSet.equal, NoditMap.equal, entriesEqual_iff, sameEntries_map (ψ := id) (fun a b => by simp)]
  simp [NoditSet.mapEntries, NoditMap.mapEntries]

omit [PointType I] [IntervalType I K] [EqKeepsEnds I K] in
theorem forall₂_cls {l l' : List K} (h : l.map cls = l'.map cls) : List.Forall₂ (fun k k' => (k == k') = true) l l' := by
  rw [← List.forall₂_eq_eq_eq, List.forall₂_map_left_iff, List.forall₂_map_right_iff] at h
  exact h.imp fun _ _ h => cls_eq.1 h

omit [PointType I] [IntervalType I K] [EqKeepsEnds I K] [BEq K] [EquivBEq K] in
theorem resEqual_of_map {α β : Type} {R : α → α → Prop} {φ : α → β} (hR : ∀ a a', φ a = φ a' → R a a') {r r' : Res α}
    (h : r.map φ = r'.map φ) : ResEqual R r r' := by
  cases r <;> cases r' <;> simp only [Except.map, reduceCtorEq, Except.error.injEq, Except.ok.injEq] at h
  · subst h; exact .panic _
  · exact .ok (hR _ _ h)

/-- **C89**, `NoditSet`: `==` is equality of the intervals in order; equal sets stay equal under equal calls and answer alike. -/
theorem C89_nodit_set_congruence {s s' : NoditSet K} (h : s.equal s' = true) {ops ops' : List (SetOp I K)}
    (ho : List.Forall₂ SetOp.Equal ops ops') :
    let t := s.run ops
    let t' := s'.run ops'
    t.equal t' = true ∧ List.Forall₂ (fun k k' => (k == k') = true) t.iter t'.iter ∧
    (∀ p : I, t.containsPoint p = t'.containsPoint p) ∧
    ∀ q : Interval I, t.overlaps q = t'.overlaps q ∧ t.containsInterval q = t'.containsInterval q ∧
      ResEqual (List.Forall₂ (fun k k' => (k == k') = true)) (t.overlapping q) (t'.overlapping q) ∧
      ResEqual (List.Forall₂ (fun k k' => (k == k') = true)) (t.gapsUntrimmed q) (t'.gapsUntrimmed q) ∧
      ResEqual (List.Forall₂ (fun k k' => (k == k') = true)) (t.gapsTrimmed q) (t'.gapsTrimmed q) := by
  intro t t'
  have hk := keeps_cls (I := I) (K := K)
  have hf : ∀ s : NoditSet K, NoditMap.Fine (fun _ : Interval I => True) (Quotient (beqSetoid K)) s.inner := fun s => Or.inl fun _ => trivial
  have ho' : ops.map (SetOp.map cls) = ops'.map (SetOp.map cls) := by
    induction ho with
    | nil => rfl
    | cons h _ ih => rw [List.map_cons, List.map_cons, ih]; congr 1; cases h <;> simp_all [SetOp.map, cls_eq]
  have ht : t.mapEntries cls = t'.mapEntries cls := by
    show (s.run ops).mapEntries cls = (s'.run ops').mapEntries cls
    rw [← NoditSet.run_map hk ops (hf s), ← NoditSet.run_map hk ops' (hf s'), ho', (NoditSet.equal_iff s s').1 h]
  have hi : t.inner.mapEntries cls id = t'.inner.mapEntries cls id := congrArg NoditSet.inner ht
  have hI : ∀ i : Interval I, ¬ True → isValid (ofInterval i : K) = false ∧ isValid (ofInterval i : Quotient (beqSetoid K)) = false :=
    fun i hi => absurd trivial hi
  refine ⟨(NoditSet.equal_iff t t').2 ht, ?_, fun p => ?_, fun q => ⟨?_, ?_, ?_, ?_, ?_⟩⟩
  · have := congrArg NoditSet.iter ht
    rw [NoditSet.iter_map, NoditSet.iter_map] at this
    exact forall₂_cls this
  · have h1 := NoditMap.containsPoint_map' hk (ψ := id) t.inner p
    rw [hi, NoditMap.containsPoint_map' hk] at h1
    exact h1.symm
  · have h1 := NoditMap.overlaps_map hk (ψ := id) t.inner q
    rw [hi, NoditMap.overlaps_map hk] at h1
    exact h1.symm
  · have h1 := NoditMap.containsInterval_map hk (ψ := id) t.inner (hf t) hI q
    rw [hi, NoditMap.containsInterval_map hk _ (hf t') hI] at h1
    exact h1.symm
  · have h1 := NoditMap.overlapping_map hk (ψ := id) t.inner q
    rw [hi, NoditMap.overlapping_map hk] at h1
    unfold NoditSet.overlapping
    revert h1
    generalize t.inner.overlapping q = r
    generalize t'.inner.overlapping q = r'
    intro h1
    cases r <;> cases r' <;> simp only [Except.map, reduceCtorEq, Except.error.injEq, Except.ok.injEq] at h1
    · subst h1; exact .panic _
    · refine .ok ?_
      have := congrArg (List.map Prod.fst) h1
      simp only [List.map_map] at this
      refine (forall₂_cls ?_)
      simpa [Function.comp_def] using this.symm
  · have h1 := NoditMap.gapsUntrimmed_map hk (ψ := id) t.inner (hf t) hI q
    rw [hi, NoditMap.gapsUntrimmed_map hk _ (hf t') hI] at h1
    exact resEqual_of_map (fun _ _ => forall₂_cls) h1.symm
  · have h1 := NoditMap.gapsTrimmed_map hk (ψ := id) t.inner (hf t) hI q
    rw [hi, NoditMap.gapsTrimmed_map hk _ (hf t') hI] at h1
    exact resEqual_of_map (fun _ _ => forall₂_cls) h1.symm

/-! ## `ZosditMap` -/

/-- the same call with equal arguments -/
inductive Spec.ZOp.Equal : ZOp I K V → ZOp I K V → Prop
  | insertStrictBack {k k' v v'} (pick) : (k == k') = true → (v == v') = true → Equal (.insertStrictBack k v pick) (.insertStrictBack k' v' pick)
  | removeLastValueAtPoint (p) : Equal (.removeLastValueAtPoint p) (.removeLastValueAtPoint p)
  | cut (q) : Equal (.cut q) (.cut q)

/-- equal results -/
inductive Spec.ZOut.Equal : ZOut K V → ZOut K V → Prop
  | inserted : Equal (.strict (.ok ())) (.strict (.ok ()))
  | refused {v v'} : (v == v') = true → Equal (.strict (.error v)) (.strict (.error v'))
  | optValue {v v'} : Option.Rel (fun v v' => (v == v') = true) v v' → Equal (.optValue v) (.optValue v')
  | entries {l l'} : SameEntries l l' → Equal (.entries l) (.entries l')

omit [PointType I] [IntervalType I K] [EqKeepsEnds I K] in
theorem ZosditMap.equal_iff (m m' : ZosditMap K V) : m.equal m' = true ↔ m.mapEntries cls cls = m'.mapEntries cls cls := by
  rw [ZosditMap.equal, Bool.and_eq_true, entriesEqual_iff, sameEntries_map list_cls]
  simp [ZosditMap.mapEntries]

omit [PointType I] [IntervalType I K] [EqKeepsEnds I K] [BEq K] [EquivBEq K] in
theorem optRel_cls {v v' : Option V} (h : v.map cls = v'.map cls) : Option.Rel (fun v v' => (v == v') = true) v v' := by
  cases v <;> cases v' <;> simp only [Option.map_none, Option.map_some, reduceCtorEq, Option.some.injEq, cls_eq] at h
  · exact .none
  · exact .some h

/-- **C89**, `ZosditMap`: equal maps stay equal under equal calls, return equal results, and answer all queries alike. (`pick`, which
stands for the shape of the B-tree, is the same on both sides; it matters only after a `cut` has made two stores with one interval,
see C39 and C50.) -/
theorem C89_zosdit_map_congruence {m m' : ZosditMap K V} (h : m.equal m' = true) {ops ops' : List (ZOp I K V)}
    (ho : List.Forall₂ ZOp.Equal ops ops') :
    let z := m.run ops
    let z' := m'.run ops'
    z.1.equal z'.1 = true ∧ List.Forall₂ (ResEqual ZOut.Equal) z.2 z'.2 ∧
    z.1.length = z'.1.length ∧ z.1.isEmpty = z'.1.isEmpty ∧ SameEntries z.1.iter z'.1.iter ∧
    (∀ p : I, Option.Rel (fun v v' => (v == v') = true) (z.1.getLastValueAtPoint p) (z'.1.getLastValueAtPoint p)) ∧
    ∀ q : Interval I, z.1.isZeroOverlap q = z'.1.isZeroOverlap q ∧
      ResEqual SameEntries (z.1.overlapping q) (z'.1.overlapping q) := by
  intro z z'
  have hk := keeps_cls (I := I) (K := K)
  have ho' : ops.map (ZOp.map cls cls) = ops'.map (ZOp.map cls cls) := by
    induction ho with
    | nil => rfl
    | cons h _ ih => rw [List.map_cons, List.map_cons, ih]; congr 1; cases h <;> simp_all [ZOp.map, cls_eq]
  have e1 := ZosditMap.run_map hk (fun _ _ => trivial) (ψ := (cls : V → _)) ops m
  have e2 := ZosditMap.run_map hk (fun _ _ => trivial) (ψ := (cls : V → _)) ops' m'
  rw [ho', (ZosditMap.equal_iff m m').1 h, e2, Prod.mk.injEq] at e1
  obtain ⟨e1, e3⟩ := e1
  replace e1 : z'.1.mapEntries cls cls = z.1.mapEntries cls cls := e1
  have el : z.1.len = z'.1.len := (congrArg ZosditMap.len e1).symm
  refine ⟨(ZosditMap.equal_iff _ _).2 e1.symm, ?_, el, by unfold ZosditMap.isEmpty; rw [el], ?_, fun p => ?_, fun q => ⟨?_, ?_⟩⟩
  · replace e3 := e3.symm
    rw [← List.forall₂_eq_eq_eq, List.forall₂_map_left_iff, List.forall₂_map_right_iff] at e3
    refine e3.imp fun r r' hr => resEqual_of_map (fun o o' h => ?_) hr
    rcases o with (_ | _) | _ | _ <;> rcases o' with (_ | _) | _ | _ <;>
      simp only [ZOut.map, reduceCtorEq, ZOut.strict.injEq, ZOut.optValue.injEq, ZOut.entries.injEq, Except.error.injEq, cls_eq] at h
    · exact .refused h
    · exact .inserted
    · exact .optValue (optRel_cls h)
    · exact .entries (sameEntries_cls.2 h)
  · have := congrArg (fun m => ZosditMap.flatten m.inner) e1
    simp only [ZosditMap.mapEntries, ZosditMap.flatten_map] at this
    exact sameEntries_cls.2 this.symm
  · have h1 := ZosditMap.getLastValueAtPoint_map hk (ψ := (cls : V → _)) z.1 p
    rw [← e1, ZosditMap.getLastValueAtPoint_map hk] at h1
    exact optRel_cls h1.symm
  · have h1 := ZosditMap.isZeroOverlap_map hk (ψ := (cls : V → _)) z.1 q
    rw [← e1, ZosditMap.isZeroOverlap_map hk] at h1
    exact h1.symm
  · have h1 := ZosditMap.overlapping_map hk (ψ := (cls : V → _)) z.1 q
    rw [← e1, ZosditMap.overlapping_map hk] at h1
    exact resEqual_of_map (fun _ _ h => sameEntries_cls.2 h) h1.symm

/-! ## `Gqdit` -/
section
variable {D : Type} [DecidableEq D]

omit [PointType I] [IntervalType I K] [EqKeepsEnds I K] in
theorem Gqdit.equal_iff (g g' : Gqdit K D) :
    g.equal g' = true ↔ g.mapEntries cls (.refl D) = g'.mapEntries cls (.refl D) := by
  rw [Gqdit.equal, NoditMap.equal, entriesEqual_iff, sameEntries_map (ψ := Finset.map (.refl D)) (fun a b => by simp)]
  simp [Gqdit.mapEntries, NoditMap.mapEntries]

/-- **C89**, `Gqdit`: every call on equal `Gqdit`s with equal arguments panics on both or leaves equal `Gqdit`s (for `append`, both the
receiver and the argument), and the queries answer alike. -/
theorem C89_gqdit_congruence {g g' o o' : Gqdit K D} (h : g.equal g' = true) (h' : o.equal o' = true) :
    let E := fun a b : Gqdit K D => a.equal b = true
    (∀ ids k k', (k == k') = true → ResEqual E (g.insert ids k) (g'.insert ids k')) ∧
    (∀ ids (q : Interval I), ResEqual E (g.cutWithIdentifiers ids q) (g'.cutWithIdentifiers ids q)) ∧
    (∀ q : Interval I, ResEqual E (g.cutAllIdentifiers q) (g'.cutAllIdentifiers q)) ∧
    ResEqual (fun a b => E a.1 b.1 ∧ E a.2 b.2) (g.append o) (g'.append o') ∧
    (∀ p : I, g.identifiersAtPoint p = g'.identifiersAtPoint p) ∧
    (∀ q : Interval I, ResEqual (List.Forall₂ (fun k k' => (k == k') = true)) (g.gapsNoIdentifier q) (g'.gapsNoIdentifier q)) ∧
    (∀ d (q : Interval I), ResEqual (List.Forall₂ (fun k k' => (k == k') = true)) (g.gapsWithIdentifier d q) (g'.gapsWithIdentifier d q)) := by
  intro E
  have hk := keeps_cls (I := I) (K := K)
  have hf : ∀ g : Gqdit K D, NoditMap.Fine (fun _ : Interval I => True) (Quotient (beqSetoid K)) g.inner := fun s => Or.inl fun _ => trivial
  have e := (Gqdit.equal_iff g g').1 h
  have eo := (Gqdit.equal_iff o o').1 h'
  have hE : ∀ a b : Gqdit K D, a.mapEntries cls (.refl D) = b.mapEntries cls (.refl D) → E a b := fun a b h => (Gqdit.equal_iff a b).2 h
  refine ⟨fun ids k k' hkk => ?_, fun ids q => ?_, fun q => ?_, ?_, fun p => ?_, fun q => ?_, fun d q => ?_⟩
  · have h1 := (Gqdit.insert_map (σ := .refl D) hk g (hf g) ids k).1
    rw [e, cls_eq.2 hkk, (Gqdit.insert_map (σ := .refl D) hk g' (hf g') ids k').1] at h1
    exact resEqual_of_map hE h1.symm
  · have h1 := (Gqdit.cutWithIdentifiers_map (σ := .refl D) hk g (hf g) ids q).1
    rw [e, (Gqdit.cutWithIdentifiers_map (σ := .refl D) hk g' (hf g') ids q).1] at h1
    exact resEqual_of_map hE h1.symm
  · have h1 := (Gqdit.cutAllIdentifiers_map (σ := .refl D) hk g (hf g) q).1
    rw [e, (Gqdit.cutAllIdentifiers_map (σ := .refl D) hk g' (hf g') q).1] at h1
    exact resEqual_of_map hE h1.symm
  · have h1 := (Gqdit.append_map (σ := .refl D) hk g (hf g) o).1
    rw [e, eo, (Gqdit.append_map (σ := .refl D) hk g' (hf g') o').1] at h1
    refine resEqual_of_map (fun a b h => ?_) h1.symm
    rw [Prod.map, Prod.map, Prod.mk.injEq] at h
    exact ⟨hE _ _ h.1, hE _ _ h.2⟩
  · have h1 := Gqdit.identifiersAtPoint_map (σ := .refl D) hk g p
    rw [e, Gqdit.identifiersAtPoint_map (σ := .refl D) hk] at h1
    cases hr : g.identifiersAtPoint p <;> cases hr' : g'.identifiersAtPoint p <;> simp_all [Except.map]
  · have h1 := Gqdit.gapsNoIdentifier_map (σ := .refl D) hk g q
    rw [e, Gqdit.gapsNoIdentifier_map hk] at h1
    exact resEqual_of_map (fun _ _ => forall₂_cls) h1.symm
  · have h1 := Gqdit.gapsWithIdentifier_map (σ := .refl D) hk g (fun _ _ => trivial) d q
    rw [e, Gqdit.gapsWithIdentifier_map (σ := .refl D) hk _ (fun _ _ => trivial)] at h1
    exact resEqual_of_map (fun _ _ => forall₂_cls) h1.symm
end
end

/-! ## What equality means for lawful keys and values -/
section
variable {I K V : Type} [PointType I] [LawfulPoint I] [IntervalType I K] [LawfulInterval I K] [BEq K] [LawfulBEq K] [BEq V] [LawfulBEq V]

omit [PointType I] [LawfulPoint I] [IntervalType I K] [LawfulInterval I K] in
theorem sameEntries_eq {A : Type} [BEq A] [LawfulBEq A] {l l' : List (K × A)} : SameEntries l l' ↔ l = l' := by
  unfold SameEntries
  simp only [beq_iff_eq, ← Prod.ext_iff]
  rw [List.forall₂_eq_eq_eq]

/-- **C89**: two `NoditMap`s (in any states reached by any histories) are equal iff every point lookup gives the same answer; so maps
that look the same from outside compare equal. -/
theorem C89_nodit_map_eq_iff_lookups (ops ops' : List (Op I K V)) :
    let m := ((NoditMap.new : NoditMap K V).run ops).1
    let m' := ((NoditMap.new : NoditMap K V).run ops').1
    m.equal m' = true ↔ ∀ p : I, m.getKeyValueAtPoint p = m'.getKeyValueAtPoint p := by
  intro m m'
  have hw : WF m.iter := C01_invariant ops
  have hw' : WF m'.iter := C01_invariant ops'
  rw [NoditMap.equal, entriesEqual_iff, sameEntries_eq]
  constructor
  · intro h p
    have : m = m' := by cases hm : m; cases hm' : m'; rw [hm, hm'] at h; cases h; rfl
    rw [this]
  · intro h
    refine (wf_iff_chain.1 hw).ext (wf_iff_chain.1 hw') fun e => ?_
    have key : ∀ p, Mem p e.1 → (e ∈ m.iter ↔ e ∈ m'.iter) := by
      intro p hp
      obtain ⟨⟨r, h1, h2⟩, -⟩ := C03_point_lookup hw p
      obtain ⟨⟨r', h1', h2'⟩, -⟩ := C03_point_lookup hw' p
      rw [h, h1'] at h1
      cases h1
      exact ⟨fun he => ((h2' e).1 ((h2 e).2 ⟨he, hp⟩)).1, fun he => ((h2 e).1 ((h2' e).2 ⟨he, hp⟩)).1⟩
    constructor
    · intro he
      exact (key (start e.1) ⟨le_refl _, (wf_iff_chain.1 hw).1 e he⟩).1 he
    · intro he
      exact (key (start e.1) ⟨le_refl _, (wf_iff_chain.1 hw').1 e he⟩).2 he

omit [LawfulPoint I] [LawfulInterval I K] [BEq K] [LawfulBEq K] [BEq V] [LawfulBEq V] in
theorem eqFlatten_inj {l l' : List (K × List V)} (h : ZosditMap.ZInv l) (h' : ZosditMap.ZInv l') (hn : ZosditMap.NoDup l)
    (hn' : ZosditMap.NoDup l') (he : ZosditMap.flatten l = ZosditMap.flatten l') : l = l' := by
  classical
  induction l generalizing l' with
  | nil =>
    cases l' with
    | nil => rfl
    | cons e l' =>
      have := h'.store e List.mem_cons_self
      rw [ZosditMap.flatten_cons, ZosditMap.flatten_nil] at he
      simp_all
  | cons e l ih =>
    cases l' with
    | nil =>
      have := h.store e List.mem_cons_self
      rw [ZosditMap.flatten_cons, ZosditMap.flatten_nil] at he
      simp_all
    | cons e' l' =>
      obtain ⟨k, s⟩ := e
      obtain ⟨k', s'⟩ := e'
      rw [ZosditMap.flatten_cons, ZosditMap.flatten_cons] at he
      have hs : s ≠ [] := h.store _ List.mem_cons_self
      have hs' : s' ≠ [] := h'.store _ List.mem_cons_self
      have hk : k = k' := by
        cases s with
        | nil => exact absurd rfl hs
        | cons v s =>
          cases s' with
          | nil => exact absurd rfl hs'
          | cons v' s' => simp only [List.map_cons, List.cons_append, List.cons.injEq, Prod.mk.injEq] at he; exact he.1.1
      subst hk
      have hout : ∀ {t : List (K × List V)}, start k ≤ stop k → (∀ d ∈ t, stop k ≤ start d.1 ∧ start k < stop d.1) →
          (ZosditMap.flatten t).filter (fun e => decide (e.1 = k)) = [] := by
        intro t hv ht
        rw [List.filter_eq_nil_iff]
        intro d hd
        simp only [ZosditMap.flatten, List.mem_flatMap, List.mem_map] at hd
        obtain ⟨x, hx, v, -, rfl⟩ := hd
        simp only [decide_eq_true_eq]
        rintro rfl
        have := ht x hx
        order
      have hin : ∀ t : List V, (t.map (fun v => (k, v))).filter (fun e => decide (e.1 = k)) = t.map (fun v => (k, v)) := by
        intro t; rw [List.filter_eq_self]; simp
      have hv := h.valid _ List.mem_cons_self
      have hf := congrArg (List.filter (fun e => decide (e.1 = k))) he
      rw [List.filter_append, List.filter_append, hin, hin,
        hout hv (fun d hd => ⟨List.rel_of_pairwise_cons h.seq hd, List.rel_of_pairwise_cons hn hd⟩),
        hout hv (fun d hd => ⟨List.rel_of_pairwise_cons h'.seq hd, List.rel_of_pairwise_cons hn' hd⟩), List.append_nil, List.append_nil] at hf
      have hss : s = s' := by
        have := congrArg (List.map Prod.snd) hf
        simpa [Function.comp_def] using this
      subst hss
      rw [List.append_cancel_left_eq] at he
      have tl : ∀ {t : List (K × List V)}, ZosditMap.ZInv ((k, s) :: t) → ZosditMap.ZInv t := fun h =>
        ⟨fun e he => h.valid e (List.mem_cons_of_mem _ he), fun e he => h.store e (List.mem_cons_of_mem _ he), h.seq.tail,
          fun e he => h.multi e (List.mem_cons_of_mem _ he)⟩
      rw [ih (tl h) (tl h') (List.Pairwise.tail hn) (List.Pairwise.tail hn') he]

/-- **C89**, `ZosditMap`: after histories without `cut`, two maps are equal iff they have the same entries in the same order and the
same `len()`. -/
theorem C89_zosdit_map_eq_iff (ops ops' : List (ZOp I K V)) (hc : ∀ op ∈ ops, op.isCut = false) (hc' : ∀ op ∈ ops', op.isCut = false) :
    let m := ((ZosditMap.new : ZosditMap K V).run ops).1
    let m' := ((ZosditMap.new : ZosditMap K V).run ops').1
    m.equal m' = true ↔ m.iter = m'.iter ∧ m.length = m'.length := by
  intro m m'
  have h := ZosditMap.run_ok (ZosditMap.good_new (K := K) (V := V)) ops
  have h' := ZosditMap.run_ok (ZosditMap.good_new (K := K) (V := V)) ops'
  rw [ZosditMap.equal, Bool.and_eq_true, entriesEqual_iff, sameEntries_eq, beq_iff_eq, and_comm]
  refine and_congr_left fun _ => ⟨fun e => congrArg ZosditMap.flatten e, fun e => ?_⟩
  exact eqFlatten_inj h.1.inv h'.1.inv (h.2.2.2 (by simp [ZosditMap.NoDup, ZosditMap.new]) hc)
    (h'.2.2.2 (by simp [ZosditMap.NoDup, ZosditMap.new]) hc') e

/-- **C89**, `ZosditMap`: if moreover nothing was removed, the entries alone decide. -/
theorem C89_zosdit_map_eq_iff_iter (ops ops' : List (ZOp I K V)) (hc : ∀ op ∈ ops, op.isCut = false ∧ op.isRemove = false)
    (hc' : ∀ op ∈ ops', op.isCut = false ∧ op.isRemove = false) :
    let m := ((ZosditMap.new : ZosditMap K V).run ops).1
    let m' := ((ZosditMap.new : ZosditMap K V).run ops').1
    m.equal m' = true ↔ m.iter = m'.iter := by
  intro m m'
  refine (C89_zosdit_map_eq_iff ops ops' (fun o h => (hc o h).1) (fun o h => (hc' o h).1)).trans ⟨fun h => h.1, fun h => ⟨h, ?_⟩⟩
  have h1 := (C42_len_partial ops (fun o h => (hc o h).2)).1
  have h2 := (C42_len_partial ops' (fun o h => (hc' o h).2)).1
  simp only [ZosditMap.after] at h1 h2
  rw [h1, h2]
  exact congrArg List.length h
end

/-! ## Equality of sets, `Gqdit`s and `ZosditMap`s -/
section
variable {I K V D : Type} [BEq K] [EquivBEq K] [BEq V] [EquivBEq V] [DecidableEq D]

/-- **C89**, `NoditSet`: two sets are equal iff their iterations have the same length and equal intervals at the same places; this is an
equivalence. -/
theorem C89_nodit_set_eq :
    (∀ s s' : NoditSet K, s.equal s' = true ↔ List.Forall₂ (fun k k' => (k == k') = true) s.iter s'.iter) ∧
    Equivalence (fun s s' : NoditSet K => s.equal s' = true) := by
  refine ⟨fun s s' => ?_, ?_⟩
  · rw [NoditSet.equal, NoditMap.equal, entriesEqual_iff]
    unfold SameEntries NoditSet.iter NoditMap.iter
    rw [List.forall₂_map_left_iff, List.forall₂_map_right_iff]
    simp
  · simp only [NoditSet.equal_iff]
    exact ⟨fun _ => rfl, fun h => h.symm, fun h h' => h.trans h'⟩

/-- **C89**, `Gqdit`: two `Gqdit`s are equal iff they are serialised to the same number of entries, equal in interval and identifiers at the
same places; this is an equivalence. -/
theorem C89_gqdit_eq :
    (∀ g g' : Gqdit K D, g.equal g' = true ↔ SameEntries g.serialize.elems g'.serialize.elems) ∧
    Equivalence (fun g g' : Gqdit K D => g.equal g' = true) := by
  refine ⟨fun g g' => ?_, ?_⟩
  · rw [Gqdit.equal, NoditMap.equal, entriesEqual_iff]; rfl
  · simp only [Gqdit.equal_iff]
    exact ⟨fun _ => rfl, fun h => h.symm, fun h h' => h.trans h'⟩

/-- **C89**, `ZosditMap`: equality is an equivalence, and equal maps have the same length and equal entries. (Not conversely, see
`C89_zosdit_map_equal_entries_unequal` and, for when it is, `C89_zosdit_map_eq_iff`.) -/
theorem C89_zosdit_map_eq :
    (∀ m m' : ZosditMap K V, m.equal m' = true → m.length = m'.length ∧ SameEntries m.iter m'.iter) ∧
    Equivalence (fun m m' : ZosditMap K V => m.equal m' = true) := by
  refine ⟨fun m m' h => ?_, ?_⟩
  · rw [ZosditMap.equal, Bool.and_eq_true, beq_iff_eq, entriesEqual_iff] at h
    refine ⟨h.1, ?_⟩
    have key : ∀ l l' : List (K × List V), SameEntries l l' → SameEntries (ZosditMap.flatten l) (ZosditMap.flatten l') := by
      intro l l' hl
      unfold SameEntries at hl ⊢
      induction hl with
      | nil => exact .nil
      | @cons a b as bs hab _ ih =>
        simp only [ZosditMap.flatten, List.flatMap_cons]
        refine List.rel_append ?_ ih
        rw [List.forall₂_map_left_iff, List.forall₂_map_right_iff]
        have hv := hab.2
        rw [list_cls, ← List.forall₂_eq_eq_eq, List.forall₂_map_left_iff, List.forall₂_map_right_iff] at hv
        exact hv.imp fun v v' hv => ⟨hab.1, cls_eq.1 hv⟩
    exact key _ _ h.2
  · simp only [ZosditMap.equal_iff]
    exact ⟨fun _ => rfl, fun h => h.symm, fun h h' => h.trans h'⟩
end

section
variable {I K D : Type} [PointType I] [LawfulPoint I] [IntervalType I K] [LawfulInterval I K] [BEq K] [LawfulBEq K] [DecidableEq D]

/-- **C89**: two `NoditSet`s reached by any histories are equal iff every point lookup gives the same answer. -/
theorem C89_nodit_set_eq_iff_lookups (ops ops' : List (SetOp I K)) :
    let s := (NoditSet.new : NoditSet K).run ops
    let s' := (NoditSet.new : NoditSet K).run ops'
    s.equal s' = true ↔ ∀ p : I, s.getAtPoint p = s'.getAtPoint p := by
  intro s s'
  have hw : Ascending s.iter := (C22_set_invariant ops).1
  have hw' : Ascending s'.iter := (C22_set_invariant ops').1
  rw [C89_nodit_set_eq.1]
  simp only [beq_iff_eq, List.forall₂_eq_eq_eq]
  have hs : ∀ {s : NoditSet K}, Ascending s.iter → ∀ k, k ∈ s.iter ↔ ∃ p : I, s.getAtPoint p = .ok (.ok k) := by
    intro s hs k
    constructor
    · intro hk
      obtain ⟨p, hp⟩ := hs.1 k hk
      obtain ⟨-, -, ⟨r, h1, h2, -⟩, -⟩ := C22_set_queries hs k (hs.1 k hk) p
      exact ⟨p, by rw [h1, (h2 k).2 ⟨hk, hp⟩]⟩
    · rintro ⟨p, hp⟩
      obtain ⟨-, -, ⟨r, h1, h2, -⟩, -⟩ := C22_set_queries hs (⟨p, p⟩ : Interval I) ⟨p, le_refl _, le_refl _⟩ p
      rw [h1] at hp
      injection hp with hp
      exact ((h2 k).1 hp).1
  have ext : (∀ k, k ∈ s.iter ↔ k ∈ s'.iter) → s = s' := by
    intro hm
    have h1 := NoditMap.ext_entries (NoditSet.wf_iff.2 hw) (NoditSet.wf_iff.2 hw') (fun e => by
      have : ∀ s : NoditSet K, e ∈ s.inner.iter ↔ e.1 ∈ s.iter := fun s => by
        simp only [NoditSet.iter, List.mem_map]
        exact ⟨fun h => ⟨e, h, rfl⟩, fun ⟨x, h1, h2⟩ => by rw [show e = x from Prod.ext h2.symm rfl]; exact h1⟩
      rw [this, this]; exact hm e.1)
    show (⟨s.inner⟩ : NoditSet K) = ⟨s'.inner⟩
    rw [h1]
  constructor
  · intro h p
    rw [ext fun k => by rw [h]]
  · intro h
    rw [ext fun k => by rw [hs hw, hs hw']; simp only [h]]

/-- **C89**: two `Gqdit`s reached by any histories are equal iff they hold the same identifiers at every point. -/
theorem C89_gqdit_eq_iff_lookups {h h' : GqHist I K D} {g g' : Gqdit K D} (hg : Gqdit.eval h = .ok g) (hg' : Gqdit.eval h' = .ok g') :
    g.equal g' = true ↔ ∀ p : I, g.identifiersAtPoint p = g'.identifiersAtPoint p := by
  classical
  rw [← C33_canonical hg hg', C89_gqdit_eq.1, sameEntries_eq, Gqdit.eq, beq_iff_eq]
  obtain ⟨⟨a⟩⟩ := g; obtain ⟨⟨b⟩⟩ := g'
  simp [Gqdit.serialize, NoditMap.serialize, NoditMap.iter]
end

/-! ## Where equality of `ZosditMap`s surprises, and non-vacuity -/
open Demo in
/-- **C89**: a map from which everything was removed again is not equal to a new map, although both iterate over nothing; and an entry
inserted, removed and inserted again makes the map unequal to one where it was inserted once. -/
theorem C89_zosdit_map_equal_entries_unequal :
    ∃ a b c : ZosditMap (Interval U8) Nat,
      a = (ZosditMap.new.run [.insertStrictBack (iv 0 5) 1 0, .removeLastValueAtPoint (u8 2)]).1 ∧
      b = (ZosditMap.new.run [.insertStrictBack (iv 0 5) 1 0]).1 ∧
      c = (ZosditMap.new.run [.insertStrictBack (iv 0 5) 1 0, .removeLastValueAtPoint (u8 2), .insertStrictBack (iv 0 5) 1 0]).1 ∧
      a.iter = (ZosditMap.new : ZosditMap (Interval U8) Nat).iter ∧ a.equal ZosditMap.new = false ∧
      b.iter = c.iter ∧ b.equal c = false := by
  exact ⟨_, _, _, rfl, rfl, rfl, by decide, by decide, by decide, by decide⟩

/-- values that compare equal if they agree modulo 10: an equivalence that is not identity -/
structure Mod10 where
  n : Nat
deriving Repr
instance : BEq Mod10 := ⟨fun a b => a.n % 10 == b.n % 10⟩
instance : EquivBEq Mod10 where
  rfl := by intro a; simp [BEq.beq]
  symm := by intro a b h; simp only [BEq.beq, decide_eq_true_eq] at h ⊢; exact h.symm
  trans := by intro a b c h h'; simp only [BEq.beq, decide_eq_true_eq] at h h' ⊢; exact h.trans h'

/-- intervals with a label that `==` ignores -/
structure Labelled where
  lo : Demo.U8
  hi : Demo.U8
  label : Nat
instance : BEq Labelled := ⟨fun a b => decide (a.lo = b.lo ∧ a.hi = b.hi)⟩
instance : EquivBEq Labelled where
  rfl := by intro a; simp [BEq.beq]
  symm := by intro a b h; simp only [BEq.beq, decide_eq_true_eq] at h ⊢; exact ⟨h.1.symm, h.2.symm⟩
  trans := by intro a b c h h'; simp only [BEq.beq, decide_eq_true_eq] at h h' ⊢; exact ⟨h.1.trans h'.1, h.2.trans h'.2⟩
instance : IntervalType Demo.U8 Labelled where
  start k := k.lo
  stop k := k.hi
  ofInterval i := ⟨i.start, i.stop, 0⟩
instance : EqKeepsEnds Demo.U8 Labelled where
  ends a b h := by simp only [BEq.beq, decide_eq_true_eq] at h; exact h

open Demo in
/-- the hypotheses of `C89_nodit_map_congruence` for maps that are equal but not identical, and calls that are equal but not identical;
the labels differ in the results -/
example : ∃ (m m' : NoditMap Labelled Mod10) (ops ops' : List (Op U8 Labelled Mod10)),
    m.equal m' = true ∧ m.iter.map (fun e => (e.1.label, e.2.n)) = [(1, 3)] ∧ m'.iter.map (fun e => (e.1.label, e.2.n)) = [(2, 13)] ∧
    List.Forall₂ Op.Equal ops ops' ∧
    (m.run ops).1.iter.map (fun e => (e.1.lo.val, e.1.hi.val, e.1.label, e.2.n)) = [(0, 9, 0, 23)] ∧
    (m'.run ops').1.iter.map (fun e => (e.1.lo.val, e.1.hi.val, e.1.label, e.2.n)) = [(0, 9, 0, 3)] := by
  refine ⟨⟨[(⟨u8 0, u8 5, 1⟩, ⟨3⟩)]⟩, ⟨[(⟨u8 0, u8 5, 2⟩, ⟨13⟩)]⟩, [.insertMergeTouchingIfValuesEqual ⟨u8 6, u8 9, 7⟩ ⟨23⟩],
    [.insertMergeTouchingIfValuesEqual ⟨u8 6, u8 9, 8⟩ ⟨3⟩], by decide, by decide, by decide,
    .cons (.insertMergeTouchingIfValuesEqual (by decide) (by decide)) .nil, by decide, by decide⟩

open Demo in
/-- the hypotheses of the `ZosditMap`, `NoditSet` and `Gqdit` theorems for containers that are equal but not identical -/
example :
    (ZosditMap.new.run [(.insertStrictBack ⟨u8 0, u8 5, 1⟩ ⟨3⟩ 0 : ZOp U8 Labelled Mod10), .insertStrictBack ⟨u8 5, u8 5, 1⟩ ⟨4⟩ 0]).1.equal
      (ZosditMap.new.run [(.insertStrictBack ⟨u8 5, u8 5, 2⟩ ⟨14⟩ 0 : ZOp U8 Labelled Mod10), .insertStrictBack ⟨u8 0, u8 5, 2⟩ ⟨13⟩ 0]).1 = true ∧
    (NoditSet.new.run [(.insertStrict ⟨u8 0, u8 5, 1⟩ : SetOp U8 Labelled)]).equal
      (NoditSet.new.run [(.insertStrict ⟨u8 0, u8 5, 2⟩ : SetOp U8 Labelled)]) = true ∧
    (⟨⟨[(⟨u8 0, u8 255, 1⟩, ({3} : Finset Nat))]⟩⟩ : Gqdit Labelled Nat).equal ⟨⟨[(⟨u8 0, u8 255, 2⟩, {3})]⟩⟩ = true := by decide
end Nodit
