import Verif.Lemmas.GqditSets
import Verif.Props.GqditStore
import Verif.Props.GqditHoles
import Mathlib.Data.List.Sort
import Mathlib.Data.Finset.Sort
/-!
# C107: identifier sets as ordered sequences; identifiers that compare equal without being identical
-/
set_option linter.unusedSectionVars false
namespace Nodit
open Spec PointType

namespace BSet
variable {D E : Type} [Ord D] [Std.TransOrd D] [DecidableEq E]

/-- the elements of a set, each replaced by what `c` makes of it -/
def classes (c : D → E) (s : BSet D) : Finset E := (s.elems.map c).toFinset

section
variable {c : D → E} (hc : ∀ a b, c a = c b ↔ compare a b = .eq)
include hc

theorem insertInto_classes (d : D) (l : List D) (e : E) : e ∈ (insertInto d l).map c ↔ e = c d ∨ e ∈ l.map c := by
  induction l with
  | nil => simp [insertInto]
  | cons x l ih =>
    simp only [insertInto]
    cases h : compare d x with
    | lt => simp
    | eq =>
      have : c d = c x := (hc d x).2 h
      simp only [List.map_cons, List.mem_cons, this]
      tauto
    | gt => simp only [List.map_cons, List.mem_cons, ih]; tauto

theorem insert_classes (s : BSet D) (d : D) : (s.insert d).classes c = s.classes c ∪ {c d} := by
  ext e
  simp only [classes, List.mem_toFinset, insert, insertInto_classes hc, Finset.mem_union, Finset.mem_singleton]
  tauto

theorem foldl_insert_classes (l : List D) (s : BSet D) : (l.foldl insert s).classes c = s.classes c ∪ (l.map c).toFinset := by
  induction l generalizing s with
  | nil => simp
  | cons x l ih => simp [ih, insert_classes hc]

theorem any_iff (d : D) (l : List D) : l.any (fun x => compare d x == .eq) = true ↔ c d ∈ l.map c := by
  simp only [List.any_eq_true, List.mem_map, beq_iff_eq]
  constructor
  · rintro ⟨x, hx, h⟩; exact ⟨x, hx, ((hc d x).2 h).symm⟩
  · rintro ⟨x, hx, h⟩; exact ⟨x, hx, (hc d x).1 h.symm⟩

theorem ne_of_lt {a b : D} (h : compare a b = .lt) : c a ≠ c b := fun e => by
  rw [(hc a b).1 e] at h; cases h

theorem nodup_map {l : List D} (h : l.Pairwise (fun a b => compare a b = .lt)) : (l.map c).Nodup := by
  rw [List.Nodup, List.pairwise_map]
  exact h.imp (fun h => ne_of_lt hc h)

theorem map_eq_of_toFinset_eq {l l' : List D} (h : l.Pairwise (fun a b => compare a b = .lt))
    (h' : l'.Pairwise (fun a b => compare a b = .lt)) (he : (l.map c).toFinset = (l'.map c).toFinset) : l.map c = l'.map c := by
  induction l generalizing l' with
  | nil => cases l' with
    | nil => rfl
    | cons x l' => exact absurd he.symm (by simp)
  | cons a l ih =>
    cases l' with
    | nil => simp at he
    | cons b l' =>
      have n1 := nodup_map hc h
      have n2 := nodup_map hc h'
      simp only [List.pairwise_cons] at h h'
      simp only [List.map_cons, List.nodup_cons] at n1 n2
      have hab : c a = c b := by
        have h1 : c a ∈ ((b :: l').map c).toFinset := by rw [← he]; simp
        have h2 : c b ∈ ((a :: l).map c).toFinset := by rw [he]; simp
        simp only [List.map_cons, List.mem_toFinset, List.mem_cons, List.mem_map] at h1 h2
        rcases h1 with h1 | ⟨x, hx, h1⟩
        · exact h1
        rcases h2 with h2 | ⟨y, hy, h2⟩
        · exact h2.symm
        have l1 := h'.1 x hx
        have l2 := h.1 y hy
        have e1 := (hc x a).1 h1
        have e2 := (hc y b).1 h2
        have l3 : compare b a = .lt := Std.TransCmp.lt_of_lt_of_eq l1 e1
        have l4 : compare a b = .lt := Std.TransCmp.lt_of_lt_of_eq l2 e2
        rw [Std.OrientedCmp.gt_of_lt l3] at l4; cases l4
      have : (l.map c).toFinset = (l'.map c).toFinset := by
        simp only [List.map_cons, List.toFinset_cons, hab] at he
        rw [← Finset.erase_insert (s := (l.map c).toFinset) (a := c b) (by rw [← hab]; simpa using n1.1), he,
          Finset.erase_insert (by simpa using n2.1)]
      simp only [List.map_cons, hab, ih h.2 h'.2 this]

theorem beq_iff (l l' : List D) :
    (l.length == l'.length && (l.zip l').all (fun p => compare p.1 p.2 == .eq)) = true ↔ l.map c = l'.map c := by
  induction l generalizing l' with
  | nil => cases l' <;> simp
  | cons a l ih =>
    cases l' with
    | nil => simp
    | cons b l' =>
      have := ih l'
      simp only [Bool.and_eq_true, beq_iff_eq, List.length_cons, Nat.add_right_cancel_iff, List.zip_cons_cons, List.all_cons,
        List.map_cons, List.cons.injEq, hc] at this ⊢
      tauto

/-- an ascending sequence does with its elements what a finite set does with their classes -/
theorem classes_hom : IdSet.Hom (classes (D := D) c) c where
  empty := rfl
  isEmpty s := by cases h : s.elems <;> simp [IdSet.isEmpty, classes, h]
  len s := by
    simp only [IdSet.len, classes]
    rw [List.toFinset_card_of_nodup (nodup_map hc s.ascending), List.length_map]
  contains s d := by
    have := any_iff hc d s.elems
    simp only [IdSet.contains, classes, List.mem_toFinset]
    rw [Bool.eq_iff_iff, this]; simp
  extend s t := by simp only [IdSet.extend, foldl_insert_classes hc]; rfl
  retainNotIn s t := by
    ext e
    simp only [IdSet.retainNotIn, classes, List.mem_toFinset, Finset.mem_filter, List.mem_map, List.mem_filter]
    constructor
    · rintro ⟨a, ⟨h1, h2⟩, rfl⟩
      refine ⟨⟨a, h1, rfl⟩, fun h3 => ?_⟩
      have := (any_iff hc a t.elems).2 (by simpa using h3)
      simp [this] at h2
    · rintro ⟨⟨a, h1, rfl⟩, h2⟩
      refine ⟨a, ⟨h1, ?_⟩, rfl⟩
      cases h : t.elems.any (fun x => compare a x == .eq) with
      | false => rfl
      | true => exact absurd ((any_iff hc a t.elems).1 h) (by simpa using h2)
  eq s t := by
    simp only [IdSet.eq]
    rw [Bool.eq_iff_iff, beq_iff hc, decide_eq_true_eq]
    exact ⟨fun h => map_eq_of_toFinset_eq hc s.ascending t.ascending h, fun h => by simp only [classes, h]⟩
end
end BSet

section
variable {I K Q D E : Type} [PointType I] [IntervalType I K] [IntervalType I Q] [Ord D] [Std.TransOrd D] [DecidableEq E]

/-- **C107**: let `c` tell identifiers apart exactly when their `Ord` does. Any program over `Gqdit`s - whatever its arguments, panicking
or not - behaves, up to `c`, like the one with finite sets of `Verif/Gqdit.lean`, about which the other properties speak: it
panics at the same call, reports at each point the same identifiers, and answers the gap queries and `==` alike. -/
theorem C107_up_to_ord {c : D → E} (hc : ∀ a b, c a = c b ↔ compare a b = .eq) (h : SGqProg I K (BSet D)) :
    (∀ e, SGqdit.evalProg h = .error e ↔ Gqdit.evalProg (h.toProg (BSet.classes c)) = .error e) ∧
    ∀ g, SGqdit.evalProg h = .ok g → ∃ r, Gqdit.evalProg (h.toProg (BSet.classes c)) = .ok r ∧
      (∀ p, (g.identifiersAtPoint p).map (BSet.classes c) = r.identifiersAtPoint p) ∧
      (∀ q : Q, g.gapsNoIdentifier q = r.gapsNoIdentifier q) ∧
      (∀ d (q : Q), g.gapsWithIdentifier d q = r.gapsWithIdentifier (c d) q) := by
  have hh := BSet.classes_hom hc
  have key : Gqdit.evalProg (h.toProg (BSet.classes c)) =
      ((SGqdit.evalProg h).map (SGqdit.mapSets (BSet.classes c))).map SGqdit.plain := by
    rw [← SGqdit.evalProg_plain, SGqdit.evalProg_map hh]
  rw [key]
  cases SGqdit.evalProg h with
  | error e => exact ⟨fun e' => by simp [Except.map], fun g hg => by cases hg⟩
  | ok g =>
    refine ⟨fun e => by simp [Except.map], fun g' hg => ?_⟩
    cases hg
    refine ⟨_, rfl, fun p => ?_, fun q => ?_, fun d q => ?_⟩
    · rw [← SGqdit.identifiersAtPoint_plain, SGqdit.identifiersAtPoint_map hh]
    · rw [← SGqdit.gapsNoIdentifier_plain, SGqdit.gapsNoIdentifier_map hh]
    · rw [← SGqdit.gapsWithIdentifier_plain, SGqdit.gapsWithIdentifier_map hh]

/-- **C107**, `==`: two `Gqdit`s are equal exactly if the ones with finite sets are. -/
theorem C107_eq [BEq K] {c : D → E} (hc : ∀ a b, c a = c b ↔ compare a b = .eq) (h h' : SGqProg I K (BSet D))
    {g g' : SGqdit K (BSet D)} (hg : SGqdit.evalProg h = .ok g) (hg' : SGqdit.evalProg h' = .ok g') :
    ∃ r r', Gqdit.evalProg (h.toProg (BSet.classes c)) = .ok r ∧ Gqdit.evalProg (h'.toProg (BSet.classes c)) = .ok r' ∧
      g.eq g' = r.equal r' := by
  have hh := BSet.classes_hom hc
  refine ⟨_, _, by rw [← SGqdit.evalProg_plain, SGqdit.evalProg_map hh, hg]; rfl,
    by rw [← SGqdit.evalProg_plain, SGqdit.evalProg_map hh, hg']; rfl, ?_⟩
  rw [← SGqdit.eq_map hh]
  unfold SGqdit.eq Gqdit.equal
  show NoditMap.equal _ _ = NoditMap.equal _ _
  rw [SGqdit.beq_plain]
  rfl

/-- **C107**: with identifiers that are identical whenever they compare equal (all of Rust's integers, strings, derived `Ord`s), the set
reported at a point is exactly that of the model with finite sets, listed in ascending order. -/
theorem C107_lawful [DecidableEq D] [Std.LawfulEqOrd D] (h : SGqProg I K (BSet D)) {g : SGqdit K (BSet D)}
    (hg : SGqdit.evalProg h = .ok g) :
    ∃ r, Gqdit.evalProg (h.toProg (fun s => s.elems.toFinset)) = .ok r ∧
      ∀ p, (∀ s, g.identifiersAtPoint p = .ok s → r.identifiersAtPoint p = .ok s.elems.toFinset ∧
          s.elems.Pairwise (fun a b => compare a b = .lt)) ∧
        ∀ e, g.identifiersAtPoint p = .error e ↔ r.identifiersAtPoint p = .error e := by
  have hc : ∀ a b : D, id a = id b ↔ compare a b = .eq := fun a b => (Std.LawfulEqCmp.compare_eq_iff_eq).symm
  have hf : (BSet.classes (id : D → D)) = fun s => s.elems.toFinset := by funext s; simp [BSet.classes]
  obtain ⟨r, h1, h2, -⟩ := (C107_up_to_ord (Q := Interval I) hc h).2 g hg
  rw [hf] at h1 h2
  refine ⟨r, h1, fun p => ⟨fun s hs => ⟨?_, s.ascending⟩, fun e => ?_⟩⟩
  · rw [← h2, hs]; rfl
  · rw [← h2]; cases g.identifiersAtPoint p <;> simp [Except.map]
end

/-! ## Where the reported identifiers come from -/
section
variable {I K Q V : Type} [PointType I] [IntervalType I K] [IntervalType I Q]

/-- all values of the map satisfy `P` -/
def NoditMap.All (P : V → Prop) (m : NoditMap K V) : Prop := ∀ e ∈ m.inner, P e.2

theorem NoditMap.All.lift {P : V → Prop} {m : NoditMap K V} (h : m.All P) :
    ∃ m₀ : NoditMap K {v // P v}, m = m₀.mapEntries id Subtype.val := by
  refine ⟨⟨m.inner.attach.map (fun e => (e.1.1, ⟨e.1.2, h e.1 e.2⟩))⟩, ?_⟩
  cases m with
  | mk l =>
    simp only [NoditMap.mapEntries, List.map_map, Function.comp_def, Prod.map, id]
    rw [List.attach_map_subtype_val]

theorem NoditMap.all_map {P : V → Prop} (m₀ : NoditMap K {v // P v}) : (m₀.mapEntries id Subtype.val).All P := by
  intro e he
  simp only [NoditMap.mapEntries, List.mem_map] at he
  obtain ⟨x, -, rfl⟩ := he
  exact x.2.2

theorem list_all_map {P : V → Prop} (l : List (K × {v // P v})) : ∀ e ∈ l.map (Prod.map id Subtype.val), P e.2 := by
  intro e he
  simp only [List.mem_map] at he
  obtain ⟨x, -, rfl⟩ := he
  exact x.2.2

theorem NoditMap.All.cut {P : V → Prop} {m m' : NoditMap K V} {l : List (K × V)} (h : m.All P) {q : Q} (hc : m.cut q = .ok (m', l)) :
    m'.All P ∧ ∀ e ∈ l, P e.2 := by
  obtain ⟨m₀, rfl⟩ := h.lift
  rw [NoditMap.cut_map keeps_id m₀ (fun _ _ => trivial)] at hc
  cases h0 : m₀.cut q with
  | error _ => rw [h0] at hc; cases hc
  | ok r => rw [h0] at hc; cases hc; exact ⟨NoditMap.all_map _, list_all_map _⟩

theorem NoditMap.All.remove {P : V → Prop} {m m' : NoditMap K V} {l : List (K × V)} (h : m.All P) {q : Q}
    (hc : m.removeOverlapping q = .ok (m', l)) : m'.All P ∧ ∀ e ∈ l, P e.2 := by
  obtain ⟨m₀, rfl⟩ := h.lift
  rw [NoditMap.removeOverlapping_map keeps_id m₀] at hc
  cases h0 : m₀.removeOverlapping q with
  | error _ => rw [h0] at hc; cases hc
  | ok r => rw [h0] at hc; cases hc; exact ⟨NoditMap.all_map _, list_all_map _⟩

theorem NoditMap.All.insertMerge [BEq V] {P : V → Prop} {m m' : NoditMap K V} {k : K} {v : V} {r : Except (OverlapError V) K} (h : m.All P)
    (hv : P v) (hc : m.insertMergeTouchingIfValuesEqual k v = .ok (m', r)) : m'.All P := by
  obtain ⟨m₀, rfl⟩ := h.lift
  let _ : BEq {v // P v} := ⟨fun a b => a.1 == b.1⟩
  have := NoditMap.insertMergeTouchingIfValuesEqual_map keeps_id m₀ (P := fun _ => True) (Or.inl fun _ => trivial)
    (ψ := Subtype.val) (fun a b => rfl) k ⟨v, hv⟩
  simp only [id] at this
  rw [this] at hc
  cases h0 : m₀.insertMergeTouchingIfValuesEqual k ⟨v, hv⟩ with
  | error _ => rw [h0] at hc; cases hc
  | ok r => rw [h0] at hc; cases hc; exact NoditMap.all_map _

theorem NoditMap.All.insertStrict {P : V → Prop} {m m' : NoditMap K V} {k : K} {v : V} {r : Except (OverlapError V) Unit} (h : m.All P)
    (hv : P v) (hc : m.insertStrict k v = .ok (m', r)) : m'.All P := by
  obtain ⟨m₀, rfl⟩ := h.lift
  have := NoditMap.insertStrict_map keeps_id m₀ (ψ := Subtype.val) k ⟨v, hv⟩
  simp only [id] at this
  rw [this] at hc
  cases h0 : m₀.insertStrict k ⟨v, hv⟩ with
  | error _ => rw [h0] at hc; cases hc
  | ok r => rw [h0] at hc; cases hc; exact NoditMap.all_map _
end

namespace SGqdit
variable {I K Q S D : Type} [PointType I] [IntervalType I K] [IntervalType I Q] [IdSet S D]

/-- what a property of sets must satisfy to hold of all the sets in a `Gqdit` -/
structure Closed (P : S → Prop) : Prop where
  empty : P (IdSet.empty : S)
  extend : ∀ s t, P s → P t → P (IdSet.extend s t)
  retain : ∀ s t, P s → P (IdSet.retainNotIn s t)

variable {P : S → Prop} (hP : Closed P)
include hP

omit hP in
theorem all_putBack {f : S → S} (hf : ∀ s, P s → P (f s)) (l : List (K × S)) (hl : ∀ e ∈ l, P e.2) {m m' : NoditMap K S} (hm : m.All P)
    (h : putBack f m l = .ok m') : m'.All P := by
  induction l generalizing m with
  | nil => cases h; exact hm
  | cons e l ih =>
    obtain ⟨k, s⟩ := e
    simp only [putBack, bind, Except.bind] at h
    cases hi : m.insertMergeTouchingIfValuesEqual k (f s) with
    | error _ => rw [hi] at h; cases h
    | ok r =>
      rw [hi] at h
      obtain ⟨m1, _ | _⟩ := r
      · cases h
      · exact ih (fun e he => hl e (by simp [he])) (hm.insertMerge (hf s (hl (k, s) (by simp))) hi) h

theorem all_insert {g g' : SGqdit K S} {ids : S} {k : K} (hg : g.inner.All P) (hi : P ids) (h : g.insert ids k = .ok g') : g'.inner.All P := by
  simp only [insert, bind, Except.bind, pure, Except.pure] at h
  cases hk : invalidIntervalPanic k with
  | error _ => rw [hk] at h; cases h
  | ok _ =>
    rw [hk] at h
    simp only at h
    split_ifs at h
    · cases h; exact hg
    · cases hc : g.inner.cut k with
      | error _ => rw [hc] at h; cases h
      | ok r =>
        rw [hc] at h
        simp only at h
        cases hp : putBack (fun s => IdSet.extend s ids) r.1 r.2 with
        | error _ => rw [hp] at h; cases h
        | ok m =>
          rw [hp] at h; cases h
          obtain ⟨h1, h2⟩ := hg.cut hc
          exact all_putBack (fun s hs => hP.extend s ids hs hi) _ h2 h1 hp

theorem all_cutWith {g g' : SGqdit K S} {ids : S} {q : Q} (hg : g.inner.All P) (h : g.cutWithIdentifiers ids q = .ok g') : g'.inner.All P := by
  simp only [cutWithIdentifiers, bind, Except.bind, pure, Except.pure] at h
  cases hk : invalidIntervalPanic q with
  | error _ => rw [hk] at h; cases h
  | ok _ =>
    rw [hk] at h
    simp only at h
    split_ifs at h
    · cases h; exact hg
    · cases hc : g.inner.cut q with
      | error _ => rw [hc] at h; cases h
      | ok r =>
        rw [hc] at h
        simp only at h
        cases hp : putBack (fun s => IdSet.retainNotIn s ids) r.1 r.2 with
        | error _ => rw [hp] at h; cases h
        | ok m =>
          rw [hp] at h; cases h
          obtain ⟨h1, h2⟩ := hg.cut hc
          exact all_putBack (fun s hs => hP.retain s ids hs) _ h2 h1 hp

theorem all_cutAll {g g' : SGqdit K S} {q : Q} (hg : g.inner.All P) (h : g.cutAllIdentifiers q = .ok g') : g'.inner.All P := by
  simp only [cutAllIdentifiers, bind, Except.bind, pure, Except.pure] at h
  cases hk : invalidIntervalPanic q with
  | error _ => rw [hk] at h; cases h
  | ok _ =>
    rw [hk] at h
    simp only at h
    cases hc : g.inner.cut q with
    | error _ => rw [hc] at h; cases h
    | ok r =>
      rw [hc] at h
      simp only at h
      cases hp : putBack (fun _ => (IdSet.empty : S)) r.1 r.2 with
      | error _ => rw [hp] at h; cases h
      | ok m =>
        rw [hp] at h; cases h
        obtain ⟨h1, h2⟩ := hg.cut hc
        exact all_putBack (fun s hs => hP.empty) _ h2 h1 hp

theorem all_insertAll (l : List (K × S)) (hl : ∀ e ∈ l, P e.2) {g g' : SGqdit K S} (hg : g.inner.All P) (h : g.insertAll l = .ok g') :
    g'.inner.All P := by
  induction l generalizing g with
  | nil => cases h; exact hg
  | cons e l ih =>
    obtain ⟨k, s⟩ := e
    simp only [insertAll, bind, Except.bind] at h
    cases hi : g.insert s k with
    | error _ => rw [hi] at h; cases h
    | ok g1 =>
      rw [hi] at h
      exact ih (fun e he => hl e (by simp [he])) (all_insert hP hg (hl (k, s) (by simp)) hi) h

theorem all_append {g o : SGqdit K S} {r : SGqdit K S × SGqdit K S} (hg : g.inner.All P) (ho : o.inner.All P) (h : g.append o = .ok r) :
    r.1.inner.All P ∧ r.2.inner.All P := by
  simp only [append, bind, Except.bind, pure, Except.pure] at h
  cases hu : (uu : Res (Interval I)) with
  | error _ => rw [hu] at h; cases h
  | ok full =>
    rw [hu] at h
    simp only at h
    cases hr : o.inner.removeOverlapping full with
    | error _ => rw [hr] at h; cases h
    | ok x =>
      rw [hr] at h
      simp only at h
      obtain ⟨h1, h2⟩ := ho.remove hr
      cases hi : g.insertAll x.2 with
      | error _ => rw [hi] at h; cases h
      | ok g1 => rw [hi] at h; cases h; exact ⟨all_insertAll hP _ h2 hg hi, h1⟩

omit hP in
theorem all_visit (l : List (K × S)) (hl : ∀ e ∈ l, P e.2) {m m' : NoditMap K S} (hm : m.All P)
    (h : NoditMap.visitSeqFrom (E := Empty) m (l.map .ok) = .ok (.ok m')) : m'.All P := by
  induction l generalizing m with
  | nil => cases h; exact hm
  | cons e l ih =>
    obtain ⟨k, s⟩ := e
    simp only [List.map_cons, NoditMap.visitSeqFrom, bind, Except.bind] at h
    cases hi : m.insertStrict k s with
    | error _ => rw [hi] at h; cases h
    | ok r =>
      rw [hi] at h
      obtain ⟨m1, _ | _⟩ := r
      · cases h
      · exact ih (fun e he => hl e (by simp [he])) (hm.insertStrict (hl (k, s) (by simp)) hi) h

theorem all_evalProg (h : SGqProg I K S) (hg : ∀ s ∈ h.given, P s) {g : SGqdit K S} (he : evalProg h = .ok g) : g.inner.All P := by
  induction h generalizing g with
  | new =>
    simp only [evalProg, new, bind, Except.bind] at he
    cases hu : (uu : Res (Interval I)) with
    | error _ => rw [hu] at he; cases he
    | ok full =>
      rw [hu] at he
      simp only at he
      cases hi : (NoditMap.new : NoditMap K S).insertStrict (ofInterval full) IdSet.empty with
      | error _ => rw [hi] at he; cases he
      | ok r =>
        rw [hi] at he
        obtain ⟨m, _ | _⟩ := r
        · cases he
        · cases he
          exact NoditMap.All.insertStrict (fun e he => by cases he) hP.empty hi
  | deserialized l =>
    simp only [evalProg, deserialize, NoditMap.deserialize, bind, Except.bind] at he
    cases hv : NoditMap.visitSeqFrom (E := Empty) (NoditMap.new : NoditMap K S) (l.map .ok) with
    | error _ => rw [hv] at he; cases he
    | ok r =>
      rw [hv] at he
      cases r with
      | error _ => cases he
      | ok m =>
        cases he
        exact all_visit l (fun e he => hg _ (by simp only [SGqProg.given, List.mem_map]; exact ⟨e, he, rfl⟩)) (fun e he => by cases he) hv
  | insert g0 ids k ih =>
    simp only [evalProg, bind, Except.bind] at he
    cases h0 : evalProg g0 with
    | error _ => rw [h0] at he; cases he
    | ok g1 =>
      rw [h0] at he
      exact all_insert hP (ih (fun s hs => hg s (by simp [SGqProg.given, hs])) h0) (hg ids (by simp [SGqProg.given])) he
  | cutWithIdentifiers g0 ids q ih =>
    simp only [evalProg, bind, Except.bind] at he
    cases h0 : evalProg g0 with
    | error _ => rw [h0] at he; cases he
    | ok g1 => rw [h0] at he; exact all_cutWith hP (ih hg h0) he
  | cutAllIdentifiers g0 q ih =>
    simp only [evalProg, bind, Except.bind] at he
    cases h0 : evalProg g0 with
    | error _ => rw [h0] at he; cases he
    | ok g1 => rw [h0] at he; exact all_cutAll hP (ih hg h0) he
  | append a b iha ihb =>
    simp only [evalProg, bind, Except.bind] at he
    cases h0 : evalProg a with
    | error _ => rw [h0] at he; cases he
    | ok g1 =>
      rw [h0] at he
      simp only at he
      cases h1 : evalProg b with
      | error _ => rw [h1] at he; cases he
      | ok g2 =>
        rw [h1] at he
        simp only at he
        cases h2 : g1.append g2 with
        | error _ => rw [h2] at he; cases he
        | ok r =>
          rw [h2] at he; cases he
          exact (all_append hP (iha (fun s hs => hg s (by simp [SGqProg.given, hs])) h0)
            (ihb (fun s hs => hg s (by simp [SGqProg.given, hs])) h1) h2).1
  | drained a b iha ihb =>
    simp only [evalProg, bind, Except.bind] at he
    cases h0 : evalProg a with
    | error _ => rw [h0] at he; cases he
    | ok g1 =>
      rw [h0] at he
      simp only at he
      cases h1 : evalProg b with
      | error _ => rw [h1] at he; cases he
      | ok g2 =>
        rw [h1] at he
        simp only at he
        cases h2 : g1.append g2 with
        | error _ => rw [h2] at he; cases he
        | ok r =>
          rw [h2] at he; cases he
          exact (all_append hP (iha (fun s hs => hg s (by simp [SGqProg.given, hs])) h0)
            (ihb (fun s hs => hg s (by simp [SGqProg.given, hs])) h1) h2).2
end SGqdit

section
variable {I K Q D : Type} [PointType I] [IntervalType I K] [Ord D] [Std.TransOrd D]

theorem BSet.closed (G : D → Prop) : SGqdit.Closed (fun s : BSet D => ∀ x ∈ s.elems, G x) where
  empty := by simp [IdSet.empty]
  extend s t hs ht := by
    simp only [IdSet.extend]
    have : ∀ (l : List D) (s : BSet D), (∀ x ∈ l, G x) → (∀ x ∈ s.elems, G x) → ∀ x ∈ (l.foldl BSet.insert s).elems, G x := by
      intro l
      induction l with
      | nil => intro s _ hs; exact hs
      | cons d l ih =>
        intro s hl hs
        refine ih (s.insert d) (fun x hx => hl x (by simp [hx])) (fun x hx => ?_)
        rcases BSet.mem_insertInto hx with rfl | hx
        · exact hl _ (by simp)
        · exact hs x hx
    exact this t.elems s ht hs
  retain s t hs := by
    intro x hx
    simp only [IdSet.retainNotIn, List.mem_filter] at hx
    exact hs x hx.1

/-- **C107**: whatever `Ord` calls equal, every identifier reported at a point is itself - not merely up to `Ord` - an element of a set
that the program inserted or deserialised. -/
theorem C107_reported_were_given (h : SGqProg I K (BSet D)) {g : SGqdit K (BSet D)} (hg : SGqdit.evalProg h = .ok g) (p : I) {s : BSet D}
    (hs : g.identifiersAtPoint p = .ok s) {d : D} (hd : d ∈ s.elems) : ∃ t ∈ h.given, d ∈ t.elems := by
  have hall := SGqdit.all_evalProg (BSet.closed (fun x => ∃ t ∈ h.given, x ∈ t.elems)) h (fun s hs x hx => ⟨s, hs, hx⟩) hg
  simp only [SGqdit.identifiersAtPoint, NoditMap.getAtPoint, NoditMap.getKeyValueAtPoint, bind, Except.bind, pure, Except.pure] at hs
  cases hf : BTree.find (overlappingComp p) g.inner.inner with
  | some e =>
    rw [hf] at hs
    cases hs
    exact hall e (BTree.find_mem hf).1 d hd
  | none =>
    rw [hf] at hs
    simp only at hs
    cases hr : g.inner.getGapAtRaw p with
    | error _ => rw [hr] at hs; cases hs
    | ok _ => rw [hr] at hs; cases hs; simp [IdSet.empty] at hd
end

section
variable {I K D E : Type} [PointType I] [LawfulPoint I] [IntervalType I K] [LawfulInterval I K] [Ord D] [Std.TransOrd D] [DecidableEq E]

/-- **C107**, against the reference contents: in a program whose interval arguments are valid and whose deserialised elements are disjoint,
each point reports, ascending, exactly one identifier for each class held there. -/
theorem C107_contents {c : D → E} (hc : ∀ a b, c a = c b ↔ compare a b = .eq) {h : SGqProg I K (BSet D)}
    (hf : (h.toProg (BSet.classes c)).Fine) :
    ∃ g, SGqdit.evalProg h = .ok g ∧ ∀ p, ∃ s, g.identifiersAtPoint p = .ok s ∧ s.elems.Pairwise (fun a b => compare a b = .lt) ∧
      ∀ e, (∃ d ∈ s.elems, c d = e) ↔ e ∈ ((h.toProg (BSet.classes c)).contents p).getD ∅ := by
  obtain ⟨r, hr, hr2⟩ := C71_contents hf
  obtain ⟨h1, h2⟩ := C107_up_to_ord (Q := Interval I) hc h
  cases hg : SGqdit.evalProg h with
  | error e => rw [(h1 e).1 hg] at hr; cases hr
  | ok g =>
    obtain ⟨r', hr', h3, -⟩ := h2 g hg
    rw [hr] at hr'; cases hr'
    refine ⟨g, rfl, fun p => ?_⟩
    have h4 := (h3 p).trans (hr2 p).1
    cases hs : g.identifiersAtPoint p with
    | error _ => rw [hs] at h4; cases h4
    | ok s =>
      refine ⟨s, rfl, s.ascending, fun e => ?_⟩
      rw [hs] at h4
      simp only [Except.map, Except.ok.injEq] at h4
      rw [← h4]
      simp [BSet.classes]
end

/-! ## Identifiers with a part that `Ord` does not look at -/

/-- an identifier type as a user may write it: `Eq` and `Ord` look at `key` only -/
structure Tagged where
  key : Nat
  tag : Nat
deriving DecidableEq

instance : Ord Tagged := ⟨fun a b => compare a.key b.key⟩

instance : Std.TransOrd Tagged where
  eq_swap := Std.OrientedCmp.eq_swap (cmp := (compare : Nat → Nat → Ordering))
  isLE_trans := Std.TransCmp.isLE_trans (cmp := (compare : Nat → Nat → Ordering))

theorem Tagged.key_iff (a b : Tagged) : a.key = b.key ↔ compare a b = .eq :=
  (Std.LawfulEqCmp.compare_eq_iff_eq (cmp := (compare : Nat → Nat → Ordering))).symm

namespace Demo
/-- `{(1, tag 0)}` on `0..=4` -/
def tagA : SGqProg U8 (Interval U8) (BSet Tagged) := .insert .new (BSet.ofList [⟨1, 0⟩]) (iv 0 4)
/-- ... then `{(1, tag 1)}` on `5..=9` -/
def tagB : SGqProg U8 (Interval U8) (BSet Tagged) := .insert tagA (BSet.ofList [⟨1, 1⟩]) (iv 5 9)
/-- ... and some more: `{(3, tag 0), (2, tag 0)}` on `3..=6`, key `1` cut from `8..=9` -/
def tagC : SGqProg U8 (Interval U8) (BSet Tagged) :=
  .cutWithIdentifiers (.insert tagB (BSet.ofList [⟨3, 0⟩, ⟨2, 0⟩]) (iv 3 6)) (BSet.ofList [⟨1, 7⟩]) (iv 8 9)
/-- what is reported at a point -/
def reported (h : SGqProg U8 (Interval U8) (BSet Tagged)) (n : Int) : Option (List (Nat × Nat)) :=
  match SGqdit.evalProg h with
  | .ok g => match g.identifiersAtPoint (u8 n) with
    | .ok s => some (s.elems.map (fun t => (t.key, t.tag)))
    | .error _ => none
  | .error _ => none
end Demo

/-- **C107**, what does not hold: an identifier reported at a point may be replaced by an equal one when a call about other points is made.
Inserting `(1, tag 1)` at `5..=9` changes what is reported at the point 2 from `(1, tag 0)` to `(1, tag 1)`: the two touching
entries have equal sets, are merged, and the merged entry gets the set of the new one. -/
theorem C107_insert_replaces_equal_identifiers_elsewhere :
    Demo.reported Demo.tagA 2 = some [(1, 0)] ∧ Demo.reported Demo.tagB 2 = some [(1, 1)] ∧ Demo.reported Demo.tagB 7 = some [(1, 1)] := by
  decide

/-- **C107**, what does not hold: `==` does not see the difference between two `Gqdit`s that report different identifiers. -/
theorem C107_equal_gqdits_may_report_differently :
    ∃ (h h' : SGqProg Demo.U8 (Interval Demo.U8) (BSet Tagged)) (g g' : SGqdit (Interval Demo.U8) (BSet Tagged)),
      SGqdit.evalProg h = .ok g ∧ SGqdit.evalProg h' = .ok g' ∧ g.eq g' = true ∧
      Demo.reported h 2 = some [(1, 0)] ∧ Demo.reported h' 2 = some [(1, 9)] :=
  ⟨Demo.tagA, .insert .new (BSet.ofList [⟨1, 9⟩]) (Demo.iv 0 4), _, _, rfl, rfl, by decide⟩

/-- hypotheses of `C107_up_to_ord`, `C107_eq` and `C107_contents`, and the order of what is reported -/
example : (∀ a b : Tagged, a.key = b.key ↔ compare a b = .eq) ∧ (Demo.tagC.toProg (BSet.classes Tagged.key)).Fine ∧
    Demo.reported Demo.tagC 4 = some [(1, 1), (2, 0), (3, 0)] ∧ Demo.reported Demo.tagC 8 = some [] ∧
    Demo.tagC.given.map (fun s => s.elems.map Tagged.tag) = [[0, 0], [1], [0]] := by
  refine ⟨Tagged.key_iff, ?_, by decide⟩
  simp only [Demo.tagC, Demo.tagB, Demo.tagA, SGqProg.toProg, GqProg.Fine, valid_iff]
  decide

/-- hypotheses of `C107_lawful`: identifiers that are numbers -/
example : ∃ g, SGqdit.evalProg (.insert (.insert .new (BSet.ofList [7, 3, 7]) (Demo.iv 0 9)) (BSet.ofList [5]) (Demo.iv 5 20) :
      SGqProg Demo.U8 (Interval Demo.U8) (BSet Nat)) = .ok g ∧
    ((g.identifiersAtPoint (Demo.u8 6)).map BSet.elems) = .ok [3, 5, 7] :=
  ⟨_, rfl, by decide⟩
end Nodit
