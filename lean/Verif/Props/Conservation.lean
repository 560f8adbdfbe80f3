import Verif.Props.Pointwise
import Verif.Props.ZosditExact
import Verif.Props.SetHistory
/-!
# C106: nothing is lost and nothing is duplicated

Bookkeeping over whole histories, by what the caller sees: the entries he put in (accepted inserts), the entries handed back to him
(by `cut`, `remove_overlapping`, `insert_overwrite`), and the entries in the map at the end. For every point and every value the number of
entries put in that have the point and the value is the number handed back plus the number in the map.
-/
set_option linter.unusedSectionVars false
namespace Nodit
namespace Spec
variable {I K V : Type} [PointType I] [IntervalType I K]

open Classical in
/-- how many of the entries contain the point `p` and have a value in `A` -/
noncomputable def counts (p : I) (A : Set V) (l : List (K × V)) : Nat := l.countP (fun e => Mem p e.1 ∧ e.2 ∈ A)

/-- the entry the caller has put into the map, from the call and its result -/
def Op.put : Op I K V → Res (Out K V) → List (K × V)
  | .insertStrict k v, .ok (.strict (.ok _)) => [(k, v)]
  | .insertMergeTouching k v, .ok (.merge (.ok _)) => [(k, v)]
  | .insertMergeTouchingIfValuesEqual k v, .ok (.merge (.ok _)) => [(k, v)]
  | .insertMergeOverlapping k v, .ok _ => [(k, v)]
  | .insertMergeTouchingOrOverlapping k v, .ok _ => [(k, v)]
  | .insertOverwrite k v, .ok _ => [(k, v)]
  | _, _ => []

/-- the entries the call has taken out of the map and handed to the caller -/
def Op.handedBack : Op I K V → Res (Out K V) → List (K × V)
  | .insertOverwrite _ _, .ok (.entries l) => l
  | .cut _, .ok (.entries l) => l
  | .removeOverlapping _, .ok (.entries l) => l
  | _, _ => []

/-- all entries put in during a history -/
def allPut (ops : List (Op I K V)) (os : List (Res (Out K V))) : List (K × V) := (ops.zip os).flatMap fun x => x.1.put x.2
/-- all entries handed back during a history -/
def allHandedBack (ops : List (Op I K V)) (os : List (Res (Out K V))) : List (K × V) := (ops.zip os).flatMap fun x => x.1.handedBack x.2

/-- the calls that neither change values in place nor merge entries with different values or overlapping entries -/
def Op.KeepsValues : Op I K V → Prop
  | .insertMergeTouching _ _ | .insertMergeOverlapping _ _ | .insertMergeTouchingOrOverlapping _ _
  | .overlappingMut _ _ | .getAtPointMut _ _ | .iterMut _ => False
  | _ => True

/-- all calls but the inserts that merge overlapping entries -/
def Op.KeepsPoints : Op I K V → Prop
  | .insertMergeOverlapping _ _ | .insertMergeTouchingOrOverlapping _ _ => False
  | _ => True

/-- the strict insert, `remove_overlapping`, and all queries -/
def Op.WholeEntries : Op I K V → Prop
  | .insertStrict _ _ | .removeOverlapping _ => True
  | .insertMergeTouching _ _ | .insertMergeTouchingIfValuesEqual _ _ | .insertMergeOverlapping _ _
  | .insertMergeTouchingOrOverlapping _ _ | .insertOverwrite _ _ | .cut _
  | .overlappingMut _ _ | .getAtPointMut _ _ | .iterMut _ => False
  | _ => True

open Classical in
/-- how many of the intervals contain the point -/
noncomputable def countsSet (p : I) (l : List K) : Nat := l.countP (fun k => Mem p k)

/-- the interval the caller has put into a `NoditSet` -/
def SetCall.put : SetCall I K → Res (SetOut K) → List K
  | .insertStrict k, .ok (.strict (.ok _)) => [k]
  | .insertMergeTouching k, .ok (.merge (.ok _)) => [k]
  | .insertMergeOverlapping k, .ok _ => [k]
  | .insertMergeTouchingOrOverlapping k, .ok _ => [k]
  | .insertOverwrite k, .ok _ => [k]
  | _, _ => []

/-- the intervals a call of a `NoditSet` has handed to the caller -/
def SetCall.handedBack : SetCall I K → Res (SetOut K) → List K
  | .insertOverwrite _, .ok (.keys l) => l
  | .cut _, .ok (.keys l) => l
  | .removeOverlapping _, .ok (.keys l) => l
  | _, _ => []

/-- all calls but the inserts that merge overlapping intervals -/
def SetCall.KeepsPoints : SetCall I K → Prop
  | .insertMergeOverlapping _ | .insertMergeTouchingOrOverlapping _ => False
  | _ => True

def allSetPut (ops : List (SetCall I K)) (os : List (Res (SetOut K))) : List K := (ops.zip os).flatMap fun x => x.1.put x.2
def allSetHandedBack (ops : List (SetCall I K)) (os : List (Res (SetOut K))) : List K := (ops.zip os).flatMap fun x => x.1.handedBack x.2

/-- the entry the caller has put into a `ZosditMap` -/
def ZOp.put : ZOp I K V → Res (ZOut K V) → List (K × V)
  | .insertStrictBack k v _, .ok (.strict (.ok _)) => [(k, v)]
  | _, _ => []

/-- the entries a `cut` of a `ZosditMap` has handed to the caller -/
def ZOp.handedBack : ZOp I K V → Res (ZOut K V) → List (K × V)
  | .cut _, .ok (.entries l) => l
  | _, _ => []

/-- the value `remove_last_value_at_point` has handed to the caller -/
def ZOp.valueBack : ZOp I K V → Res (ZOut K V) → List V
  | .removeLastValueAtPoint _, .ok (.optValue (some v)) => [v]
  | _, _ => []

def allZPut (ops : List (ZOp I K V)) (os : List (Res (ZOut K V))) : List (K × V) := (ops.zip os).flatMap fun x => x.1.put x.2
def allZHandedBack (ops : List (ZOp I K V)) (os : List (Res (ZOut K V))) : List (K × V) := (ops.zip os).flatMap fun x => x.1.handedBack x.2
def allZValuesBack (ops : List (ZOp I K V)) (os : List (Res (ZOut K V))) : List V := (ops.zip os).flatMap fun x => x.1.valueBack x.2
end Spec
open Spec PointType

variable {I K V : Type} [PointType I] [IntervalType I K] [LawfulPoint I] [LawfulInterval I K]

namespace Conservation
/-- some entry of `S` contains `p` and has a value in `A` -/
def Has (S : Set (K × V)) (p : I) (A : Set V) : Prop := ∃ e ∈ S, Mem p e.1 ∧ e.2 ∈ A

section
omit [LawfulInterval I K]
omit [LawfulPoint I] in
theorem counts_append (p : I) (A : Set V) (l l' : List (K × V)) : counts p A (l ++ l') = counts p A l + counts p A l' := by
  simp [counts]
omit [LawfulPoint I] in
theorem counts_nil (p : I) (A : Set V) : counts p A ([] : List (K × V)) = 0 := rfl

open Classical in
theorem counts_one (p : I) (A : Set V) (e : K × V) : counts p A [e] = if Mem p e.1 ∧ e.2 ∈ A then 1 else 0 := by
  simp [counts, List.countP_cons]

open Classical in
theorem counts_cons (p : I) (A : Set V) (e : K × V) (l : List (K × V)) :
    counts p A (e :: l) = (if Mem p e.1 ∧ e.2 ∈ A then 1 else 0) + counts p A l := by
  rw [← counts_one, ← counts_append]; rfl

open Classical in
theorem counts_wf {l : List (K × V)} (h : WF l) {S : Set (K × V)} (hS : ∀ e, e ∈ l ↔ e ∈ S) (p : I) (A : Set V) :
    counts p A l = if Has S p A then 1 else 0 := by
  have hS' : Has S p A ↔ ∃ e ∈ l, Mem p e.1 ∧ e.2 ∈ A := by simp only [Has, hS]
  simp only [hS']
  clear hS hS'
  induction l with
  | nil => simp [counts]
  | cons e l ih =>
    have hb := (List.pairwise_cons.1 h.2).1
    rw [counts_cons, ih ⟨fun e he => h.1 e (List.mem_cons_of_mem _ he), (List.pairwise_cons.1 h.2).2⟩]
    by_cases he : Mem p e.1 ∧ e.2 ∈ A
    · have : ¬ ∃ d ∈ l, Mem p d.1 ∧ d.2 ∈ A := fun ⟨d, hd, hp, _⟩ => lt_irrefl p (hb d hd p p he.1 hp)
      rw [if_pos he, if_neg this, if_pos ⟨e, List.mem_cons_self, he⟩]
    · rw [if_neg he]
      have : (∃ d ∈ e :: l, Mem p d.1 ∧ d.2 ∈ A) ↔ ∃ d ∈ l, Mem p d.1 ∧ d.2 ∈ A := by simp [he]
      simp only [this]; split_ifs <;> rfl
end

theorem has_returned {Q : Type} [IntervalType I Q] {S : Set (K × V)} {q : Q} (p : I) (A : Set V) :
    Has (CutReturned S q) p A ↔ Mem p q ∧ Has S p A := by
  constructor
  · rintro ⟨e, ⟨f, hf, i, rfl, hi⟩, hp, hA⟩
    have := (hi.2 p).1 (mem_ofInterval.1 hp)
    exact ⟨this.2, f, hf, this.1, hA⟩
  · rintro ⟨hq, f, hf, hp, hA⟩
    have h : ∃ i : Interval I, Describes i (fun p => Mem p f.1 ∧ Mem p q) := by
      refine ⟨⟨max (start f.1) (start q), min (stop f.1) (stop q)⟩, ⟨p, ?_, ?_⟩, fun x => ?_⟩
      · exact max_le hp.1 hq.1
      · exact le_min hp.2 hq.2
      · change max _ _ ≤ x ∧ x ≤ min _ _ ↔ _
        rw [max_le_iff, le_min_iff]; simp only [Mem]; tauto
    obtain ⟨i, hi⟩ := h
    exact ⟨(ofInterval i, f.2), ⟨f, hf, i, rfl, hi⟩, mem_ofInterval.2 ((hi.2 p).2 ⟨hp, hq⟩), hA⟩

theorem has_remaining {Q : Type} [IntervalType I Q] {S : Set (K × V)} {q : Q} (hq : Valid q) (p : I) (A : Set V) :
    Has (CutRemaining S q) p A ↔ ¬ Mem p q ∧ Has S p A := by
  constructor
  · rintro ⟨e, he, hpe, hA⟩
    rcases he with ⟨he, hno⟩ | ⟨d, hd, ho, i, rfl, hi | hi⟩
    · exact ⟨fun hp => hno ⟨p, hpe, hp⟩, e, he, hpe, hA⟩
    · have := (hi.2 p).1 (mem_ofInterval.1 hpe)
      exact ⟨fun hp => lt_irrefl _ (this.2 p hp), d, hd, this.1, hA⟩
    · have := (hi.2 p).1 (mem_ofInterval.1 hpe)
      exact ⟨fun hp => lt_irrefl _ (this.2 p hp), d, hd, this.1, hA⟩
  · rintro ⟨hp, e, he, hpe, hA⟩
    by_cases ho : Overlap e.1 q
    · have hq' := valid_iff.1 hq
      rcases lt_or_ge p (start q) with hlt | hge
      · obtain ⟨i, hi⟩ := exists_part_below ⟨p, hpe⟩ hq hpe ((forall_mem_lt hq' p).2 hlt)
        exact ⟨(ofInterval i, e.2), Or.inr ⟨e, he, ho, i, rfl, Or.inl hi⟩,
          mem_ofInterval.2 ((hi.2 p).2 ⟨hpe, (forall_mem_lt hq' p).2 hlt⟩), hA⟩
      · have hgt : stop q < p := not_le.1 fun hle => hp ⟨hge, hle⟩
        obtain ⟨i, hi⟩ := exists_part_above ⟨p, hpe⟩ hq hpe ((forall_mem_gt hq' p).2 hgt)
        exact ⟨(ofInterval i, e.2), Or.inr ⟨e, he, ho, i, rfl, Or.inr hi⟩,
          mem_ofInterval.2 ((hi.2 p).2 ⟨hpe, (forall_mem_gt hq' p).2 hgt⟩), hA⟩
    · exact ⟨e, Or.inl ⟨he, ho⟩, hpe, hA⟩

theorem has_add {S : Set (K × V)} {k : K} {v : V} (p : I) (A : Set V) :
    Has (S ∪ {(k, v)}) p A ↔ Has S p A ∨ (Mem p k ∧ v ∈ A) := by
  constructor
  · rintro ⟨e, he | rfl, h⟩
    · exact Or.inl ⟨e, he, h⟩
    · exact Or.inr h
  · rintro (⟨e, he, h⟩ | h)
    · exact ⟨e, Or.inl he, h⟩
    · exact ⟨_, Or.inr rfl, h⟩

omit [LawfulInterval I K] in
theorem entry_unique {l : List (K × V)} (h : WF l) {p : I} {e d : K × V} (he : e ∈ l) (hd : d ∈ l) (hpe : Mem p e.1) (hpd : Mem p d.1) : e = d := by
  obtain ⟨-, hp⟩ := h
  induction l with
  | nil => cases he
  | cons a l ih =>
    obtain ⟨h1, h2⟩ := List.pairwise_cons.1 hp
    rcases List.mem_cons.1 he with he' | he' <;> rcases List.mem_cons.1 hd with hd' | hd'
    · rw [he', hd']
    · subst he'; exact absurd (h1 d hd' p p hpe hpd) (lt_irrefl p)
    · subst hd'; exact absurd (h1 e he' p p hpd hpe) (lt_irrefl p)
    · exact ih he' hd' h2

theorem perm_chain {α : Type} {p i h i' x y z : List α} (h1 : (p ++ i).Perm (h ++ i')) (h2 : (i' ++ x).Perm (y ++ z)) :
    (i ++ (p ++ x)).Perm ((h ++ y) ++ z) := by
  have a1 : (i ++ (p ++ x)).Perm ((p ++ i) ++ x) := by
    rw [← List.append_assoc]; exact List.Perm.append_right _ List.perm_append_comm
  have a2 : ((h ++ i') ++ x).Perm ((h ++ y) ++ z) := by
    rw [List.append_assoc, List.append_assoc]; exact List.Perm.append_left _ h2
  exact a1.trans ((List.Perm.append_right _ h1).trans a2)

theorem put_error [BEq V] (op : Op I K V) (x : Panic) : op.put (.error x) = [] := by cases op <;> rfl
theorem handedBack_error [BEq V] (op : Op I K V) (x : Panic) : op.handedBack (.error x) = [] := by cases op <;> rfl

/-- one call: an equation for the calls that keep what is counted, an inequality of the points for all -/
theorem step_counts [BEq V] [LawfulBEq V] {l l' : List (K × V)} (hl : WF l) (hl' : WF l') {op : Op I K V} {o : Out K V}
    (hb : ¬ op.Bad) (hs : SpecOp {e | e ∈ l} op {e | e ∈ l'} o) (p : I) (A : Set V) :
    ((op.KeepsValues ∨ op.KeepsPoints ∧ A = Set.univ) →
      counts p A (op.put (.ok o)) + counts p A l = counts p A (op.handedBack (.ok o)) + counts p A l') ∧
    (A = Set.univ → counts p A (op.handedBack (.ok o)) + counts p A l' ≤ counts p A (op.put (.ok o)) + counts p A l) := by
  classical
  rw [counts_wf hl (S := {e | e ∈ l}) (fun e => Iff.rfl), counts_wf hl' (S := {e | e ∈ l'}) (fun e => Iff.rfl)]
  have huniq : ∀ e ∈ {e | e ∈ l}, ∀ d ∈ {e | e ∈ l}, Mem p e.1 → Mem p d.1 → e = d := fun e he d hd => entry_unique hl he hd
  generalize {e | e ∈ l} = S at hs huniq ⊢
  generalize {e | e ∈ l'} = S' at hs ⊢
  have merge : ∀ {k : K} {v : V} {T : Set (K × V)} {r : K}, MergedKey k {e | e ∈ S ∧ e ∈ T} r → S' = {e | e ∈ S ∧ ¬ e ∈ T} ∪ {(r, v)} →
      ((∀ e ∈ S, e ∈ T → e.2 = v) ∨ A = Set.univ) → (Has S' p A ↔ Has S p A ∨ (Mem p k ∧ v ∈ A)) := by
    intro k v T r hr hS' hA
    rw [hS', has_add, hr.1]
    constructor
    · rintro (⟨e, he, h⟩ | ⟨h | ⟨e, he, h⟩, hv⟩)
      · exact Or.inl ⟨e, he.1, h⟩
      · exact Or.inr ⟨h, hv⟩
      · refine Or.inl ⟨e, he.1, h, ?_⟩
        rcases hA with hA | hA
        · rw [hA e he.1 he.2]; exact hv
        · simp [hA]
    · rintro (⟨e, he, h⟩ | ⟨h, hv⟩)
      · by_cases hT : e ∈ T
        · refine Or.inr ⟨Or.inr ⟨e, ⟨he, hT⟩, h.1⟩, ?_⟩
          rcases hA with hA | hA
          · rw [← hA e he hT]; exact h.2
          · simp [hA]
        · exact Or.inl ⟨e, ⟨he, hT⟩, h⟩
      · exact Or.inr ⟨Or.inl h, hv⟩
  have disj : ∀ {k : K} {v : V}, (¬ ∃ e ∈ S, Overlap e.1 k) → Mem p k ∧ v ∈ A → ¬ Has S p A :=
    fun hn hk ⟨e, he, hp, _⟩ => hn ⟨e, he, p, hp, hk.1⟩
  cases op with
  | insertStrict k v =>
    by_cases hc : ∃ e ∈ S, Overlap e.1 k
    · obtain ⟨rfl, rfl⟩ := hs.1 hc; simp [Op.put, Op.handedBack, counts_nil]
    · obtain ⟨rfl, rfl⟩ := hs.2 hc
      simp only [Op.put, Op.handedBack, counts_nil, counts_one, has_add]
      have := disj (v := v) hc
      split_ifs <;> simp <;> tauto
  | insertMergeTouching k v =>
    by_cases hc : ∃ e ∈ S, Overlap e.1 k
    · obtain ⟨rfl, rfl⟩ := hs.1 hc; simp [Op.put, Op.handedBack, counts_nil]
    · obtain ⟨r, h1, h2, rfl⟩ := hs.2 hc
      have hm := merge (T := {e | Touch e.1 k}) h1 h2
      have := disj (v := v) hc
      simp only [Op.put, Op.handedBack, counts_nil, counts_one, Op.KeepsValues, Op.KeepsPoints, false_or, true_and]
      refine ⟨fun hA => ?_, fun hA => ?_⟩ <;> (simp only [hm (Or.inr hA)]; split_ifs <;> simp <;> tauto)
  | insertMergeTouchingIfValuesEqual k v =>
    by_cases hc : ∃ e ∈ S, Overlap e.1 k
    · obtain ⟨rfl, rfl⟩ := hs.1 hc; simp [Op.put, Op.handedBack, counts_nil]
    · obtain ⟨r, h1, h2, rfl⟩ := hs.2 hc
      have hm := merge (T := {e | Touch e.1 k ∧ (e.2 == v) = true}) h1 h2 (Or.inl fun e _ he => by simpa using he.2)
      have := disj (v := v) hc
      simp only [Op.put, Op.handedBack, counts_nil, counts_one, hm]
      split_ifs <;> simp <;> tauto
  | insertMergeOverlapping k v =>
    obtain ⟨r, h1, h2, rfl⟩ := hs
    have hm := merge (T := {e | Overlap e.1 k}) h1 h2
    simp only [Op.put, Op.handedBack, counts_nil, counts_one, Op.KeepsValues, Op.KeepsPoints, false_or, false_and, IsEmpty.forall_iff, true_and]
    intro hA
    simp only [hm (Or.inr hA)]; split_ifs <;> first | omega | tauto
  | insertMergeTouchingOrOverlapping k v =>
    obtain ⟨r, h1, h2, rfl⟩ := hs
    have hm := merge (T := {e | Touch e.1 k ∨ Overlap e.1 k}) h1 h2
    simp only [Op.put, Op.handedBack, counts_nil, counts_one, Op.KeepsValues, Op.KeepsPoints, false_or, false_and, IsEmpty.forall_iff, true_and]
    intro hA
    simp only [hm (Or.inr hA)]; split_ifs <;> first | omega | tauto
  | insertOverwrite k v =>
    obtain ⟨out, ⟨hw, h1⟩, rfl, rfl⟩ := hs
    have hk : Valid k := not_not.1 hb
    simp only [Op.put, Op.handedBack, counts_one, counts_wf hw h1, has_add, has_returned, has_remaining hk]
    split_ifs <;> simp <;> tauto
  | cut q =>
    obtain ⟨out, ⟨hw, h1⟩, rfl, rfl⟩ := hs
    have hk : Valid q := not_not.1 hb
    simp only [Op.put, Op.handedBack, counts_nil, counts_wf hw h1, has_returned, has_remaining hk]
    split_ifs <;> simp <;> tauto
  | removeOverlapping q =>
    obtain ⟨out, ⟨hw, h1⟩, rfl, rfl⟩ := hs
    simp only [Op.put, Op.handedBack, counts_nil, counts_wf hw h1]
    have e1 : Has S p A ↔ Has {e | e ∈ S ∧ Overlap e.1 q} p A ∨ Has {e | e ∈ S ∧ ¬ Overlap e.1 q} p A := by
      constructor
      · rintro ⟨e, he, h⟩
        by_cases ho : Overlap e.1 q
        · exact Or.inl ⟨e, ⟨he, ho⟩, h⟩
        · exact Or.inr ⟨e, ⟨he, ho⟩, h⟩
      · rintro (⟨e, he, h⟩ | ⟨e, he, h⟩) <;> exact ⟨e, he.1, h⟩
    have e2 : ¬ (Has {e | e ∈ S ∧ Overlap e.1 q} p A ∧ Has {e | e ∈ S ∧ ¬ Overlap e.1 q} p A) := by
      rintro ⟨⟨e, he, h, -⟩, d, hd, h', -⟩
      obtain rfl := huniq e he.1 d hd.1 h h'
      exact hd.2 he.2
    split_ifs <;> simp <;> tauto
  | overlappingMut q f =>
    obtain ⟨rfl, rfl⟩ := hs
    simp only [Op.put, Op.handedBack, counts_nil, Op.KeepsValues, Op.KeepsPoints, false_or, true_and]
    have e1 : A = Set.univ → (Has {e | ∃ d ∈ S, (Overlap d.1 q ∧ e = (d.1, f d.1 d.2)) ∨ (¬ Overlap d.1 q ∧ e = d)} p A ↔ Has S p A) := by
      rintro rfl
      constructor
      · rintro ⟨e, ⟨d, hd, ⟨-, rfl⟩ | ⟨-, rfl⟩⟩, h, -⟩ <;> exact ⟨_, hd, h, trivial⟩
      · rintro ⟨d, hd, h, -⟩
        by_cases ho : Overlap d.1 q
        · exact ⟨_, ⟨d, hd, Or.inl ⟨ho, rfl⟩⟩, h, trivial⟩
        · exact ⟨_, ⟨d, hd, Or.inr ⟨ho, rfl⟩⟩, h, trivial⟩
    exact ⟨fun hA => by simp only [e1 hA], fun hA => by simp only [e1 hA]; omega⟩
  | getAtPointMut q f =>
    obtain ⟨r, -, rfl, rfl⟩ := hs
    simp only [Op.put, Op.handedBack, counts_nil, Op.KeepsValues, Op.KeepsPoints, false_or, true_and]
    have e1 : A = Set.univ → (Has {e | ∃ d ∈ S, (Mem q d.1 ∧ e = (d.1, f d.2)) ∨ (¬ Mem q d.1 ∧ e = d)} p A ↔ Has S p A) := by
      rintro rfl
      constructor
      · rintro ⟨e, ⟨d, hd, ⟨-, rfl⟩ | ⟨-, rfl⟩⟩, h, -⟩ <;> exact ⟨_, hd, h, trivial⟩
      · rintro ⟨d, hd, h, -⟩
        by_cases ho : Mem q d.1
        · exact ⟨_, ⟨d, hd, Or.inl ⟨ho, rfl⟩⟩, h, trivial⟩
        · exact ⟨_, ⟨d, hd, Or.inr ⟨ho, rfl⟩⟩, h, trivial⟩
    exact ⟨fun hA => by simp only [e1 hA], fun hA => by simp only [e1 hA]; omega⟩
  | iterMut f =>
    obtain ⟨rfl, rfl⟩ := hs
    simp only [Op.put, Op.handedBack, counts_nil, Op.KeepsValues, Op.KeepsPoints, false_or, true_and]
    have e1 : A = Set.univ → (Has {e | ∃ d ∈ S, e = (d.1, f d.1 d.2)} p A ↔ Has S p A) := by
      rintro rfl
      constructor
      · rintro ⟨e, ⟨d, hd, rfl⟩, h, -⟩; exact ⟨_, hd, h, trivial⟩
      · rintro ⟨d, hd, h, -⟩; exact ⟨_, ⟨d, hd, rfl⟩, h, trivial⟩
    exact ⟨fun hA => by simp only [e1 hA], fun hA => by simp only [e1 hA]; omega⟩
  | overlapping q | overlaps q | gapsUntrimmed q | gapsTrimmed q | containsInterval q | getAtPoint p | containsPoint p
  | iter | len | isEmpty | firstKeyValue | lastKeyValue =>
    obtain ⟨_, -, rfl, -⟩ := hs; simp [Op.put, Op.handedBack, counts_nil]
  | getKeyValueAtPoint p => obtain ⟨_, -, -, rfl, -⟩ := hs; simp [Op.put, Op.handedBack, counts_nil]

omit [LawfulInterval I K] in
theorem wf_nodup {l : List (K × V)} (h : WF l) : l.Nodup := by
  refine List.Pairwise.imp_of_mem (fun {a b} ha _ hab => ?_) h.2
  rintro rfl
  obtain ⟨p, hp⟩ := h.1 a ha
  exact lt_irrefl p (hab p p hp hp)

theorem step_whole [BEq V] {l l' : List (K × V)} (hl : WF l) (hl' : WF l') {op : Op I K V} {o : Out K V} (hb : ¬ op.Bad)
    (hs : SpecOp {e | e ∈ l} op {e | e ∈ l'} o) (hop : op.WholeEntries) : (op.put (.ok o) ++ l).Perm (op.handedBack (.ok o) ++ l') := by
  classical
  have same : {e | e ∈ l'} = {e | e ∈ l} → l.Perm l' := fun h =>
    (List.perm_ext_iff_of_nodup (wf_nodup hl) (wf_nodup hl')).2 fun e => (Set.ext_iff.1 h e).symm
  cases op with
  | insertStrict k v =>
    by_cases hc : ∃ e ∈ {e | e ∈ l}, Overlap e.1 k
    · obtain ⟨h1, rfl⟩ := hs.1 hc; exact same h1
    · obtain ⟨h1, rfl⟩ := hs.2 hc
      have hk : Valid k := not_not.1 hb
      have hn : (k, v) ∉ l := fun h => hc ⟨(k, v), h, by obtain ⟨p, hp⟩ := hk; exact ⟨p, hp, hp⟩⟩
      refine (List.perm_ext_iff_of_nodup (List.nodup_cons.2 ⟨hn, wf_nodup hl⟩) (wf_nodup hl')).2 fun e => ?_
      rw [show e ∈ l' ↔ e ∈ l ∨ e = (k, v) from Set.ext_iff.1 h1 e, List.mem_cons]
      tauto
  | removeOverlapping q =>
    obtain ⟨out, ⟨hw, h1⟩, h2, rfl⟩ := hs
    have h2' : ∀ e, e ∈ l' ↔ e ∈ l ∧ ¬ Overlap e.1 q := fun e => Set.ext_iff.1 h2 e
    refine (List.perm_ext_iff_of_nodup (wf_nodup hl) (List.nodup_append.2 ⟨wf_nodup hw, wf_nodup hl', ?_⟩)).2 fun e => ?_
    · rintro a ha b hb rfl
      exact ((h2' a).1 hb).2 ((h1 a).1 ha).2
    · have := h1 e; have := h2' e
      simp only [List.mem_append]
      simp only [Set.mem_ofPred_eq] at *
      tauto
  | insertMergeTouching _ _ | insertMergeTouchingIfValuesEqual _ _ | insertMergeOverlapping _ _ | insertMergeTouchingOrOverlapping _ _
  | insertOverwrite _ _ | cut _ | overlappingMut _ _ | getAtPointMut _ _ | iterMut _ => exact hop.elim
  | overlapping q | overlaps q | gapsUntrimmed q | gapsTrimmed q | containsInterval q | getAtPoint p | containsPoint p
  | iter | len | isEmpty | firstKeyValue | lastKeyValue =>
    obtain ⟨_, -, h1, -⟩ := hs; exact same h1
  | getKeyValueAtPoint p => obtain ⟨_, -, -, h1, -⟩ := hs; exact same h1

theorem run_counts [BEq V] [LawfulBEq V] (ops : List (Op I K V)) {m : NoditMap K V} (h : WF m.iter) (p : I) (A : Set V) :
    ((∀ op ∈ ops, op.KeepsValues ∨ op.KeepsPoints ∧ A = Set.univ) →
      counts p A (allPut ops (m.run ops).2) + counts p A m.iter =
        counts p A (allHandedBack ops (m.run ops).2) + counts p A (m.run ops).1.iter) ∧
    (A = Set.univ → counts p A (allHandedBack ops (m.run ops).2) + counts p A (m.run ops).1.iter ≤
      counts p A (allPut ops (m.run ops).2) + counts p A m.iter) := by
  induction ops generalizing m with
  | nil => simp [allPut, allHandedBack, NoditMap.run, counts_nil]
  | cons op ops ih =>
    rcases NoditMap.step_refines h op with ⟨hb, he⟩ | ⟨hb, m', o, ho, hw, hs⟩
    · obtain ⟨h1, h2⟩ := ih h
      simp only [NoditMap.run, he, allPut, allHandedBack, List.zip_cons_cons, List.flatMap_cons, put_error, handedBack_error, List.nil_append]
      exact ⟨fun hk => h1 fun op hop => hk op (List.mem_cons_of_mem _ hop), h2⟩
    · obtain ⟨h1, h2⟩ := ih hw
      obtain ⟨h3, h4⟩ := step_counts h hw hb hs p A
      simp only [NoditMap.run, ho, allPut, allHandedBack, List.zip_cons_cons, List.flatMap_cons, counts_append]
      simp only [allPut, allHandedBack] at h1 h2
      refine ⟨fun hk => ?_, fun hA => ?_⟩
      · have := h1 fun op hop => hk op (List.mem_cons_of_mem _ hop)
        have := h3 (hk op List.mem_cons_self)
        omega
      · have := h2 hA
        have := h4 hA
        omega
end Conservation
open Conservation

/-! ## `NoditMap` -/
section
variable [BEq V] [LawfulBEq V]

open Classical in
/-- **C106**: in a history without in-place changes of values and without the inserts that merge entries of different values or
overlapping entries, for every point and value: what was put in is what was handed back and what is still there. -/
theorem C106_values (ops : List (Op I K V)) (hops : ∀ op ∈ ops, op.KeepsValues) (p : I) (v : V) :
    counts p {v} (allPut ops ((NoditMap.new : NoditMap K V).run ops).2) =
      counts p {v} (allHandedBack ops ((NoditMap.new : NoditMap K V).run ops).2) +
      if ((NoditMap.new : NoditMap K V).run ops).1.getAtPoint p = .ok (some v) then 1 else 0 := by
  have hw := C01_invariant (I := I) (K := K) (V := V) ops
  have := (run_counts ops (wf_new (K := K) (V := V) (I := I)) p {v}).1 fun op hop => Or.inl (hops op hop)
  have h0 : counts p {v} (NoditMap.new : NoditMap K V).iter = 0 := rfl
  rw [h0, Nat.add_zero] at this
  rw [this, counts_wf hw (fun e => Iff.rfl)]
  obtain ⟨r, h1, h2⟩ := NoditMap.spec_getAtPoint hw p
  congr 1
  rw [h1]
  have : (Except.ok r : Res (Option V)) = .ok (some v) ↔ r = some v := by simp
  simp only [this, h2, Has]
  rfl

open Classical in
/-- **C106**, regardless of values: without the inserts that merge overlapping entries, for every point: the accepted inserts covering
it are as many as the entries handed back that contain it, plus one if it is covered. -/
theorem C106_points (ops : List (Op I K V)) (hops : ∀ op ∈ ops, op.KeepsPoints) (p : I) :
    counts p Set.univ (allPut ops ((NoditMap.new : NoditMap K V).run ops).2) =
      counts p Set.univ (allHandedBack ops ((NoditMap.new : NoditMap K V).run ops).2) +
      if ((NoditMap.new : NoditMap K V).run ops).1.containsPoint p = .ok true then 1 else 0 := by
  have hw := C01_invariant (I := I) (K := K) (V := V) ops
  have := (run_counts ops (wf_new (K := K) (V := V) (I := I)) p Set.univ).1 fun op hop => Or.inr ⟨hops op hop, rfl⟩
  have h0 : counts p Set.univ (NoditMap.new : NoditMap K V).iter = 0 := rfl
  rw [h0, Nat.add_zero] at this
  rw [this, counts_wf hw (fun e => Iff.rfl)]
  obtain ⟨r, h1, h2⟩ := NoditMap.spec_containsPoint hw p
  congr 1
  rw [h1]
  have : (Except.ok r : Res Bool) = .ok true ↔ r = true := by simp
  simp only [this, h2, Has, Covered, Set.mem_univ, and_true]
  rfl

open Classical in
/-- **C106**, all histories: a point is never handed back more often than it was put in, and if as often, it is not covered. -/
theorem C106_bound (ops : List (Op I K V)) (p : I) :
    (counts p Set.univ (allHandedBack ops ((NoditMap.new : NoditMap K V).run ops).2) +
      if ((NoditMap.new : NoditMap K V).run ops).1.containsPoint p = .ok true then 1 else 0) ≤
    counts p Set.univ (allPut ops ((NoditMap.new : NoditMap K V).run ops).2) := by
  have hw := C01_invariant (I := I) (K := K) (V := V) ops
  have := (run_counts ops (wf_new (K := K) (V := V) (I := I)) p Set.univ).2 rfl
  have h0 : counts p Set.univ (NoditMap.new : NoditMap K V).iter = 0 := rfl
  rw [h0, Nat.add_zero] at this
  refine le_trans (le_of_eq ?_) this
  rw [counts_wf hw (fun e => Iff.rfl)]
  obtain ⟨r, h1, h2⟩ := NoditMap.spec_containsPoint hw p
  congr 1
  rw [h1]
  have : (Except.ok r : Res Bool) = .ok true ↔ r = true := by simp
  simp only [this, h2, Has, Covered, Set.mem_univ, and_true]
  rfl

/-- **C106**, whole entries: with strict inserts, `remove_overlapping` and queries only, the entries put in are, up to order, the entries
handed back and those still there (keys and values as the caller passed them). -/
theorem C106_whole_entries (ops : List (Op I K V)) (hops : ∀ op ∈ ops, op.WholeEntries) :
    (allPut ops ((NoditMap.new : NoditMap K V).run ops).2).Perm
      (allHandedBack ops ((NoditMap.new : NoditMap K V).run ops).2 ++ ((NoditMap.new : NoditMap K V).run ops).1.iter) := by
  have main : ∀ {m : NoditMap K V}, WF m.iter → (m.iter ++ allPut ops (m.run ops).2).Perm
      (allHandedBack ops (m.run ops).2 ++ (m.run ops).1.iter) := by
    induction ops with
    | nil => intro m _; simp [allPut, allHandedBack, NoditMap.run]
    | cons op ops ih =>
      intro m h
      have ih' := fun {m : NoditMap K V} => ih (fun op hop => hops op (List.mem_cons_of_mem _ hop)) (m := m)
      rcases NoditMap.step_refines h op with ⟨hb, he⟩ | ⟨hb, m', o, ho, hw, hs⟩
      · simpa [NoditMap.run, he, allPut, allHandedBack, put_error, handedBack_error] using ih' h
      · have h1 := ih' hw
        simp only [NoditMap.run, ho, allPut, allHandedBack, List.zip_cons_cons, List.flatMap_cons] at h1 ⊢
        have key : (op.put (.ok o) ++ m.iter).Perm (op.handedBack (.ok o) ++ m'.iter) := step_whole h hw hb hs (hops op List.mem_cons_self)
        exact perm_chain key h1
  exact main (wf_new (K := K) (V := V) (I := I))
end

/-! ## `NoditSet` -/

namespace Conservation
omit [LawfulPoint I] [LawfulInterval I K] in
theorem countsSet_map (p : I) (l : List (K × Unit)) : countsSet p (l.map Prod.fst) = counts p Set.univ l := by
  simp only [countsSet, counts, List.countP_map, Function.comp_def]
  congr 1; funext e; simp

omit [LawfulPoint I] [LawfulInterval I K] in
theorem set_put {S S' : Set (K × Unit)} {op : SetCall I K} {o : Out K Unit} (h : SpecOp S op.toMap S' o) :
    op.put (.ok (SetOut.ofMap o)) = (op.toMap.put (.ok o)).map Prod.fst ∧
    op.handedBack (.ok (SetOut.ofMap o)) = (op.toMap.handedBack (.ok o)).map Prod.fst := by
  cases op with
  | insertStrict k =>
    by_cases hc : ∃ e ∈ S, Overlap e.1 k
    · obtain ⟨-, rfl⟩ := h.1 hc; exact ⟨rfl, rfl⟩
    · obtain ⟨-, rfl⟩ := h.2 hc; exact ⟨rfl, rfl⟩
  | insertMergeTouching k =>
    by_cases hc : ∃ e ∈ S, Overlap e.1 k
    · obtain ⟨-, rfl⟩ := h.1 hc; exact ⟨rfl, rfl⟩
    · obtain ⟨_, -, -, rfl⟩ := h.2 hc; exact ⟨rfl, rfl⟩
  | insertMergeOverlapping k | insertMergeTouchingOrOverlapping k | insertOverwrite k | cut q | removeOverlapping q =>
    obtain ⟨_, -, -, rfl⟩ := h; exact ⟨rfl, rfl⟩
  | overlapping q | overlaps q | gapsUntrimmed q | gapsTrimmed q | containsInterval q | getAtPoint p | containsPoint p
  | iter | len | isEmpty | first | last => exact ⟨rfl, rfl⟩

theorem allSet_eq (ops : List (SetCall I K)) {m : NoditMap K Unit} (h : WF m.iter) :
    let os := (m.run (ops.map SetCall.toMap)).2
    allSetPut ops (os.map fun o => o.map SetOut.ofMap) = (allPut (ops.map SetCall.toMap) os).map Prod.fst ∧
    allSetHandedBack ops (os.map fun o => o.map SetOut.ofMap) = (allHandedBack (ops.map SetCall.toMap) os).map Prod.fst := by
  induction ops generalizing m with
  | nil => exact ⟨rfl, rfl⟩
  | cons op ops ih =>
    rcases NoditMap.step_refines h op.toMap with ⟨hb, he⟩ | ⟨hb, m', o, ho, hw, hs⟩
    · obtain ⟨h1, h2⟩ := ih h
      have e1 : op.put (.error .invalidInterval) = [] := by cases op <;> rfl
      have e2 : op.handedBack (.error .invalidInterval) = [] := by cases op <;> rfl
      simp only [List.map_cons, NoditMap.run, he, allSetPut, allSetHandedBack, allPut, allHandedBack, List.zip_cons_cons, List.flatMap_cons,
        put_error, handedBack_error, Except.map, e1, e2, List.nil_append] at h1 h2 ⊢
      exact ⟨h1, h2⟩
    · obtain ⟨h1, h2⟩ := ih hw
      obtain ⟨e1, e2⟩ := set_put hs
      simp only [List.map_cons, NoditMap.run, ho, allSetPut, allSetHandedBack, allPut, allHandedBack, List.zip_cons_cons, List.flatMap_cons,
        Except.map, e1, e2, List.map_append] at h1 h2 ⊢
      exact ⟨by rw [h1], by rw [h2]⟩
end Conservation

/-- **C106** for `NoditSet`: without the inserts that merge overlapping intervals, for every point: the accepted inserts containing it are
as many as the intervals handed back that contain it, plus those in the set; with all calls there are at least as many. -/
theorem C106_set_points (ops : List (SetCall I K)) (p : I) :
    ((∀ op ∈ ops, op.KeepsPoints) → countsSet p (allSetPut ops ((NoditSet.new : NoditSet K).runCalls ops).2) =
      countsSet p (allSetHandedBack ops ((NoditSet.new : NoditSet K).runCalls ops).2) + countsSet p ((NoditSet.new : NoditSet K).runCalls ops).1.iter) ∧
    countsSet p (allSetHandedBack ops ((NoditSet.new : NoditSet K).runCalls ops).2) + countsSet p ((NoditSet.new : NoditSet K).runCalls ops).1.iter ≤
      countsSet p (allSetPut ops ((NoditSet.new : NoditSet K).runCalls ops).2) := by
  have h0 : WF (NoditSet.new : NoditSet K).inner.iter := wf_new (K := K) (V := Unit) (I := I)
  obtain ⟨h1, h2⟩ := allSet_eq ops h0
  obtain ⟨h3, h4⟩ := run_counts (ops.map SetCall.toMap) h0 p Set.univ
  have hz : counts p Set.univ (NoditSet.new : NoditSet K).inner.iter = 0 := rfl
  rw [hz, Nat.add_zero] at h3 h4
  rw [runCalls_eq]
  simp only [h1, h2, countsSet_map]
  have hi : ∀ m : NoditMap K Unit, countsSet p (⟨m⟩ : NoditSet K).iter = counts p Set.univ m.iter := fun m => countsSet_map p _
  rw [hi]
  refine ⟨fun hk => h3 fun op hop => Or.inr ⟨?_, rfl⟩, h4 rfl⟩
  obtain ⟨o, ho, rfl⟩ := List.mem_map.1 hop
  have := hk o ho
  cases o <;> exact this

/-! ## `ZosditMap` -/

namespace Conservation
open ZosditMap (Represents)
theorem counts_part {P : I → Prop} {v : V} {l : List (K × V)} (h : Part P v l) (p : I) (A : Set V) [Decidable (P p ∧ v ∈ A)] :
    counts p A l = if P p ∧ v ∈ A then 1 else 0 := by
  rcases h with ⟨h1, rfl⟩ | ⟨i, hi, rfl⟩
  · rw [counts_nil, if_neg (fun h => h1 p h.1)]
  · rw [counts_one]
    have : Mem p (ofInterval (K := K) i) ↔ P p := by rw [mem_ofInterval]; exact hi.2 p
    simp only [this]

theorem counts_cutAll {Q : Type} [IntervalType I Q] {q : Q} (hq : Valid q) {l left returned : List (K × V)} (h : CutAll q l left returned)
    (p : I) (A : Set V) : counts p A l = counts p A returned + counts p A left := by
  classical
  induction h with
  | nil => rfl
  | @cons e l left returned left' returned' h1 _ ih =>
    rw [counts_cons, counts_append, counts_append, ih]
    obtain ⟨ha, hb, hc⟩ := h1
    have : (if Mem p e.1 ∧ e.2 ∈ A then 1 else 0) = counts p A returned + counts p A left := by
      rw [counts_part ha]
      by_cases ho : Overlap e.1 q
      · obtain ⟨below, above, rfl, h2, h3⟩ := hc ho
        rw [counts_append, counts_part h2, counts_part h3, forall_mem_lt (valid_iff.1 hq), forall_mem_gt (valid_iff.1 hq)]
        have : Mem p q ↔ ¬ p < start q ∧ ¬ stop q < p := by rw [not_lt, not_lt]; exact Iff.rfl
        rw [this]
        have hv := valid_iff.1 hq
        by_cases h1 : p < start q <;> by_cases h2 : stop q < p
        · exact absurd (lt_trans h2 h1) (not_lt.2 hv)
        all_goals simp [h1, h2]
      · rw [hb ho, counts_one, if_neg (c := (_ ∧ _) ∧ _) (fun h => ho ⟨p, h.1⟩), Nat.zero_add]
    omega

theorem zput_error (op : ZOp I K V) (x : Panic) : op.put (.error x) = [] := by cases op <;> rfl
theorem zhandedBack_error (op : ZOp I K V) (x : Panic) : op.handedBack (.error x) = [] := by cases op <;> rfl
theorem zvalueBack_error (op : ZOp I K V) (x : Panic) : op.valueBack (.error x) = [] := by cases op <;> rfl

theorem added_counts {l l' : List (K × V)} {k : K} {v : V} {b : Prop} (h : AddedAt l k v b l') (p : I) (A : Set V) :
    counts p A l' = counts p A [(k, v)] + counts p A l := by
  classical
  obtain ⟨l1, k', l2, rfl, rfl, h1, -⟩ := h
  rw [counts_append, counts_append, counts_cons, counts_one]
  have : Mem p k' ↔ Mem p k := h1 p
  simp only [this]
  omega

theorem zstep_counts {s s' : ZState K V} {op : ZOp I K V} {o : ZOut K V} (hb : ¬ op.Bad) (hs : ZSpecOp s op s' o) (p : I) (A : Set V) :
    (op.isRemove = false → counts p A (op.put (.ok o)) + counts p A s.entries = counts p A (op.handedBack (.ok o)) + counts p A s'.entries) ∧
    counts p A (op.handedBack (.ok o)) + counts p A s'.entries ≤ counts p A (op.put (.ok o)) + counts p A s.entries := by
  classical
  cases op with
  | insertStrictBack k v pick =>
    by_cases hc : ∃ e ∈ s.entries, ¬ ZeroOverlap e.1 k
    · obtain ⟨rfl, rfl⟩ := hs.1 hc; simp [ZOp.put, ZOp.handedBack, counts_nil]
    · obtain ⟨rfl, l', h1, rfl⟩ := hs.2 (by push Not at hc; exact hc)
      have := added_counts h1 p A
      simp only [ZOp.put, ZOp.handedBack, counts_nil]
      omega
  | removeLastValueAtPoint x =>
    by_cases hc : NotFound s.entries x
    · obtain ⟨rfl, rfl⟩ := hs.1 hc; simp [ZOp.put, ZOp.handedBack, counts_nil]
    · obtain ⟨l1, k, v, l2, h1, -, -, rfl, rfl⟩ := hs.2 hc
      refine ⟨fun h => absurd h (by simp [ZOp.isRemove]), ?_⟩
      simp only [ZOp.put, ZOp.handedBack, counts_nil, h1, counts_append, counts_cons]
      omega
  | cut q =>
    by_cases hc : CutMisses s.entries q
    · obtain ⟨rfl, rfl⟩ := hs.1 hc; simp [ZOp.put, ZOp.handedBack, counts_nil]
    · obtain ⟨left, returned, h1, rfl, rfl⟩ := hs.2 hc
      have := counts_cutAll (not_not.1 hb) h1 p A
      simp only [ZOp.put, ZOp.handedBack, counts_nil]
      omega

theorem zrun_counts (ops : List (ZOp I K V)) {m : ZosditMap K V} {s : ZState K V} (h : Represents m s) (p : I) (A : Set V) :
    ((∀ op ∈ ops, op.isRemove = false) →
      counts p A (allZPut ops (m.run ops).2) + counts p A m.iter =
        counts p A (allZHandedBack ops (m.run ops).2) + counts p A (m.run ops).1.iter) ∧
    counts p A (allZHandedBack ops (m.run ops).2) + counts p A (m.run ops).1.iter ≤
      counts p A (allZPut ops (m.run ops).2) + counts p A m.iter := by
  induction ops generalizing m s with
  | nil => simp [allZPut, allZHandedBack, ZosditMap.run, counts_nil]
  | cons op ops ih =>
    rcases ZosditMap.step_refines h op with ⟨hb, he⟩ | ⟨hb, m', o, s', ho, hw, hs⟩
    · obtain ⟨h1, h2⟩ := ih h
      simp only [ZosditMap.run, he, allZPut, allZHandedBack, List.zip_cons_cons, List.flatMap_cons, zput_error, zhandedBack_error, List.nil_append]
      exact ⟨fun hk => h1 fun op hop => hk op (List.mem_cons_of_mem _ hop), h2⟩
    · obtain ⟨h1, h2⟩ := ih hw
      obtain ⟨h3, h4⟩ := zstep_counts hb hs p A
      rw [hw.entries] at h1 h2
      rw [h.entries]
      simp only [ZosditMap.run, ho, allZPut, allZHandedBack, List.zip_cons_cons, List.flatMap_cons, counts_append]
      simp only [allZPut, allZHandedBack] at h1 h2
      refine ⟨fun hk => ?_, ?_⟩
      · have := h1 fun op hop => hk op (List.mem_cons_of_mem _ hop)
        have := h3 (hk op List.mem_cons_self)
        omega
      · omega
end Conservation
open ZosditMap

/-- **C106** for `ZosditMap`, histories of inserts and cuts: for every point and value, what was put in is what the cuts handed back and
what is still there. So a `cut` that misses entries (C43) leaves them in, and loses nothing. -/
theorem C106_zosdit_values (ops : List (ZOp I K V)) (hops : ∀ op ∈ ops, op.isRemove = false) (p : I) (v : V) :
    counts p {v} (allZPut ops (outputs ops)) = counts p {v} (allZHandedBack ops (outputs ops)) + counts p {v} (after ops).iter := by
  have := (zrun_counts ops (represents_new (I := I) (K := K) (V := V)) p {v}).1 hops
  have h0 : counts p {v} (new : ZosditMap K V).iter = 0 := rfl
  rw [h0, Nat.add_zero] at this
  exact this

/-- **C106** for `ZosditMap`, all histories: never more handed back and still there than was put in. -/
theorem C106_zosdit_bound (ops : List (ZOp I K V)) (p : I) (v : V) :
    counts p {v} (allZHandedBack ops (outputs ops)) + counts p {v} (after ops).iter ≤ counts p {v} (allZPut ops (outputs ops)) := by
  have := (zrun_counts ops (represents_new (I := I) (K := K) (V := V)) p {v}).2
  have h0 : counts p {v} (new : ZosditMap K V).iter = 0 := rfl
  rw [h0, Nat.add_zero] at this
  exact this

/-- **C106** for `ZosditMap`, histories of inserts and removals: the values put in are, up to order, those handed back by
`remove_last_value_at_point` and those still there. -/
theorem C106_zosdit_whole_values (ops : List (ZOp I K V)) (hops : ∀ op ∈ ops, op.isCut = false) :
    ((allZPut ops (outputs ops)).map Prod.snd).Perm (allZValuesBack ops (outputs ops) ++ (after ops).iter.map Prod.snd) := by
  have main : ∀ {m : ZosditMap K V} {s : ZState K V}, Represents m s → (m.iter.map Prod.snd ++ (allZPut ops (m.run ops).2).map Prod.snd).Perm
      (allZValuesBack ops (m.run ops).2 ++ (m.run ops).1.iter.map Prod.snd) := by
    induction ops with
    | nil => intro m s _; simp [allZPut, allZValuesBack, ZosditMap.run]
    | cons op ops ih =>
      intro m s h
      have ih' := fun {m : ZosditMap K V} {s : ZState K V} => ih (fun op hop => hops op (List.mem_cons_of_mem _ hop)) (m := m) (s := s)
      rcases ZosditMap.step_refines h op with ⟨hb, he⟩ | ⟨hb, m', o, s', ho, hw, hs⟩
      · simpa [ZosditMap.run, he, allZPut, allZValuesBack, zput_error, zvalueBack_error] using ih' h
      · have h1 := ih' hw
        simp only [ZosditMap.run, ho, allZPut, allZValuesBack, List.zip_cons_cons, List.flatMap_cons, List.map_append] at h1 ⊢
        have key : ((op.put (.ok o)).map Prod.snd ++ m.iter.map Prod.snd).Perm (op.valueBack (.ok o) ++ m'.iter.map Prod.snd) := by
          rw [h.entries, hw.entries]
          cases op with
          | insertStrictBack k v pick =>
            by_cases hc : ∃ e ∈ s.entries, ¬ ZeroOverlap e.1 k
            · obtain ⟨rfl, rfl⟩ := hs.1 hc; simp [ZOp.put, ZOp.valueBack]
            · obtain ⟨rfl, l', ⟨l1, k', l2, h1, rfl, -⟩, rfl⟩ := hs.2 (by push Not at hc; exact hc)
              simp only [ZOp.put, ZOp.valueBack, h1]
              simpa using List.perm_middle.symm
          | removeLastValueAtPoint x =>
            by_cases hc : NotFound s.entries x
            · obtain ⟨rfl, rfl⟩ := hs.1 hc; simp [ZOp.put, ZOp.valueBack]
            · obtain ⟨l1, k, v, l2, h1, -, -, rfl, rfl⟩ := hs.2 hc
              simp only [ZOp.put, ZOp.valueBack, h1]
              simp
          | cut q => exact absurd (hops _ List.mem_cons_self) (by simp [ZOp.isCut])
        exact perm_chain key h1
  have := main (represents_new (I := I) (K := K) (V := V))
  exact this

/-! ## Instances -/

/-- accepted, refused and panicking inserts, a merge of equal values, an overwrite, a cut through two entries, a removal -/
def Demo.cons : List (Op Demo.U8 (Interval Demo.U8) Nat) :=
  [.insertStrict (Demo.iv 0 9) 1, .insertStrict (Demo.iv 5 6) 1, .insertMergeTouchingIfValuesEqual (Demo.iv 10 19) 1, .insertStrict (Demo.iv 9 8) 1,
   .insertOverwrite (Demo.iv 15 24) 2, .cut (Demo.iv 3 16), .insertStrict (Demo.iv 5 5) 1, .removeOverlapping (Demo.iv 4 17), .getAtPoint (Demo.u8 2)]

example : (∀ op ∈ Demo.cons, op.KeepsValues) ∧ (∀ op ∈ Demo.cons, op.KeepsPoints) ∧
    allPut Demo.cons (NoditMap.new.run Demo.cons).2 =
      [(Demo.iv 0 9, 1), (Demo.iv 10 19, 1), (Demo.iv 15 24, 2), (Demo.iv 5 5, 1)] ∧
    allHandedBack Demo.cons (NoditMap.new.run Demo.cons).2 =
      [(Demo.iv 15 19, 1), (Demo.iv 3 14, 1), (Demo.iv 15 16, 2), (Demo.iv 5 5, 1), (Demo.iv 17 24, 2)] ∧
    (NoditMap.new.run Demo.cons).1.iter = [(Demo.iv 0 2, 1)] := by
  refine ⟨?_, ?_, by decide, by decide, by decide⟩ <;> simp [Demo.cons, Op.KeepsValues, Op.KeepsPoints]

/-- with a merge of overlapping entries a point put in twice is there once: the bound of `C106_bound` is not an equation -/
example : let ops : List (Op Demo.U8 (Interval Demo.U8) Nat) := [.insertStrict (Demo.iv 0 9) 1, .insertMergeOverlapping (Demo.iv 5 12) 2]
    allPut ops (NoditMap.new.run ops).2 = [(Demo.iv 0 9, 1), (Demo.iv 5 12, 2)] ∧ allHandedBack ops (NoditMap.new.run ops).2 = [] ∧
    (NoditMap.new.run ops).1.iter = [(Demo.iv 0 12, 2)] := by decide

/-- the same calls on a set, where the equal values are the touching merge -/
def Demo.scons : List (SetCall Demo.U8 (Interval Demo.U8)) :=
  [.insertStrict (Demo.iv 0 9), .insertStrict (Demo.iv 5 6), .insertMergeTouching (Demo.iv 10 19), .insertStrict (Demo.iv 9 8),
   .insertOverwrite (Demo.iv 15 24), .cut (Demo.iv 3 16), .removeOverlapping (Demo.iv 4 17)]

example : (∀ op ∈ Demo.scons, op.KeepsPoints) ∧
    allSetPut Demo.scons (NoditSet.new.runCalls Demo.scons).2 = [Demo.iv 0 9, Demo.iv 10 19, Demo.iv 15 24] ∧
    allSetHandedBack Demo.scons (NoditSet.new.runCalls Demo.scons).2 = [Demo.iv 15 19, Demo.iv 3 14, Demo.iv 15 16, Demo.iv 17 24] ∧
    (NoditSet.new.runCalls Demo.scons).1.iter = [Demo.iv 0 2] := by
  refine ⟨?_, by decide, by decide, by decide⟩; simp [Demo.scons, SetCall.KeepsPoints]

/-- strict inserts (one refused) and a removal of two entries -/
def Demo.whole : List (Op Demo.U8 (Interval Demo.U8) Nat) :=
  [.insertStrict (Demo.iv 8 9) 1, .insertStrict (Demo.iv 0 3) 2, .insertStrict (Demo.iv 3 5) 3, .insertStrict (Demo.iv 20 30) 4,
   .removeOverlapping (Demo.iv 9 20)]

example : (∀ op ∈ Demo.whole, op.WholeEntries) ∧
    allPut Demo.whole (NoditMap.new.run Demo.whole).2 = [(Demo.iv 8 9, 1), (Demo.iv 0 3, 2), (Demo.iv 20 30, 4)] ∧
    allHandedBack Demo.whole (NoditMap.new.run Demo.whole).2 = [(Demo.iv 8 9, 1), (Demo.iv 20 30, 4)] ∧
    (NoditMap.new.run Demo.whole).1.iter = [(Demo.iv 0 3, 2)] := by
  refine ⟨?_, by decide, by decide, by decide⟩; simp [Demo.whole, Op.WholeEntries]

/-- inserts and two cuts, the second of which misses -/
def Demo.zcons : List (ZOp Demo.U8 (Interval Demo.U8) Nat) :=
  [.insertStrictBack (Demo.iv 0 4) 1 0, .insertStrictBack (Demo.iv 4 8) 2 0, .insertStrictBack (Demo.iv 4 4) 3 0, .cut (Demo.iv 3 5), .cut (Demo.iv 4 7)]

example : (∀ op ∈ Demo.zcons, op.isRemove = false) ∧
    allZPut Demo.zcons (outputs Demo.zcons) = [(Demo.iv 0 4, 1), (Demo.iv 4 8, 2), (Demo.iv 4 4, 3)] ∧
    allZHandedBack Demo.zcons (outputs Demo.zcons) = [(Demo.iv 3 4, 1), (Demo.iv 4 4, 3), (Demo.iv 4 5, 2)] ∧
    (after Demo.zcons).iter = [(Demo.iv 0 2, 1), (Demo.iv 6 8, 2)] := by decide

/-- inserts and removals -/
def Demo.zpops : List (ZOp Demo.U8 (Interval Demo.U8) Nat) :=
  [.insertStrictBack (Demo.iv 0 4) 1 0, .insertStrictBack (Demo.iv 4 4) 2 0, .insertStrictBack (Demo.iv 4 4) 3 0,
   .removeLastValueAtPoint (Demo.u8 4), .removeLastValueAtPoint (Demo.u8 9), .removeLastValueAtPoint (Demo.u8 1)]

example : (∀ op ∈ Demo.zpops, op.isCut = false) ∧ (allZPut Demo.zpops (outputs Demo.zpops)).map Prod.snd = [1, 2, 3] ∧
    allZValuesBack Demo.zpops (outputs Demo.zpops) = [3, 1] ∧ (after Demo.zpops).iter = [(Demo.iv 4 4, 2)] := by decide
end Nodit
