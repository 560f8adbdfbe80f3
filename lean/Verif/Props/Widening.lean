import Verif.Props.SetTransfer
import Verif.Props.Pointwise
import Verif.Props.Points
import Verif.Props.GqditClients
/-!
# C104: a wider point type gives the same results

A program that outgrows its point type (`u8` becomes `u16`, or a type is wrapped in the README's `WithInfinity`) runs as before: all
calls return the same, read over the wider type, and the maps have the same entries. Only gaps differ, and only where they reach the end
of the point type: there they now reach the end of the wider one.
-/
set_option linter.unusedSectionVars false
namespace Nodit
open Spec PointType NoditMap

/-- `f` embeds a point type in a wider one: it keeps the order, and what lies between two points of the old type is a point of the old
type -/
structure Embeds {I J : Type} [PointType I] [PointType J] (f : I → J) : Prop where
  le_iff : ∀ a b, f a ≤ f b ↔ a ≤ b
  convex : ∀ a b j, f a ≤ j → j ≤ f b → ∃ c, f c = j

/-- the interval `q'` over the wider point type has the ends of `q` -/
def SameEnds {I J A A' : Type} [IntervalType I A] [IntervalType J A'] (f : I → J) (q : A) (q' : A') : Prop :=
  start q' = f (start q) ∧ stop q' = f (stop q)

/-- the interval over the wider point type with the same ends -/
def Interval.widen {I J : Type} (f : I → J) (i : Interval I) : Interval J := ⟨f i.start, f i.stop⟩

/-- `φ` turns an interval type into one over the wider point type, keeping the ends and the conversion from an `Interval` -/
structure Widens {I J K K' : Type} [PointType I] [IntervalType I K] [IntervalType J K'] (f : I → J) (φ : K → K') : Prop where
  ends : ∀ k, SameEnds f k (φ k)
  of_eq : ∀ i : Interval I, Valid i → φ (ofInterval i) = ofInterval (i.widen f)

/-- a gap seen over the wider point type: an end that was the end of the point type is now the end of the wider one -/
def widenGap {I J K K' : Type} [PointType I] [PointType J] [IntervalType I K] [IntervalType J K'] (f : I → J) (g : K) : K' :=
  ofInterval ⟨if start g = MIN then MIN else f (start g), if stop g = MAX then MAX else f (stop g)⟩

section
variable {I J K K' A A' B B' V : Type} [PointType I] [PointType J] [IntervalType I K] [IntervalType J K']
  [IntervalType I A] [IntervalType J A'] [IntervalType I B] [IntervalType J B'] {f : I → J} {φ : K → K'}

/-! ## Points and intervals -/
section
variable (hf : Embeds f)
include hf

theorem Embeds.lt_iff (a b : I) : f a < f b ↔ a < b := by
  rw [← not_le, ← not_le, hf.le_iff]

theorem Embeds.inj {a b : I} (h : f a = f b) : a = b :=
  le_antisymm ((hf.le_iff _ _).1 h.le) ((hf.le_iff _ _).1 h.ge)

variable {a : A} {a' : A'} {b : B} {b' : B'}

theorem SameEnds.mem (h : SameEnds f a a') (c : I) : Mem (f c) a' ↔ Mem c a := by
  unfold Mem; rw [h.1, h.2, hf.le_iff, hf.le_iff]

theorem SameEnds.mem_iff (h : SameEnds f a a') (j : J) : Mem j a' ↔ ∃ c, f c = j ∧ Mem c a := by
  constructor
  · intro hj
    have := hj
    unfold Mem at this
    rw [h.1, h.2] at this
    obtain ⟨c, rfl⟩ := hf.convex _ _ j this.1 this.2
    exact ⟨c, rfl, (h.mem hf c).1 hj⟩
  · rintro ⟨c, rfl, hc⟩; exact (h.mem hf c).2 hc

theorem SameEnds.forall_mem (h : SameEnds f a a') {P : J → Prop} : (∀ j, Mem j a' → P j) ↔ ∀ c, Mem c a → P (f c) := by
  constructor
  · intro h' c hc; exact h' _ ((h.mem hf c).2 hc)
  · intro h' j hj; obtain ⟨c, rfl, hc⟩ := (h.mem_iff hf j).1 hj; exact h' c hc

theorem SameEnds.valid (h : SameEnds f a a') : Valid a' ↔ Valid a := by
  constructor
  · rintro ⟨j, hj⟩; obtain ⟨c, -, hc⟩ := (h.mem_iff hf j).1 hj; exact ⟨c, hc⟩
  · rintro ⟨c, hc⟩; exact ⟨f c, (h.mem hf c).2 hc⟩

theorem SameEnds.overlap (h : SameEnds f a a') (h' : SameEnds f b b') : Overlap a' b' ↔ Overlap a b := by
  constructor
  · rintro ⟨j, hj, hj'⟩
    obtain ⟨c, rfl, hc⟩ := (h.mem_iff hf j).1 hj
    exact ⟨c, hc, (h'.mem hf c).1 hj'⟩
  · rintro ⟨c, hc, hc'⟩; exact ⟨f c, (h.mem hf c).2 hc, (h'.mem hf c).2 hc'⟩

theorem SameEnds.before (h : SameEnds f a a') (h' : SameEnds f b b') : Before a' b' ↔ Before a b := by
  constructor
  · intro hb x y hx hy; exact (hf.lt_iff _ _).1 (hb _ _ ((h.mem hf x).2 hx) ((h'.mem hf y).2 hy))
  · intro hb i j hi hj
    obtain ⟨x, rfl, hx⟩ := (h.mem_iff hf i).1 hi
    obtain ⟨y, rfl, hy⟩ := (h'.mem_iff hf j).1 hj
    exact (hf.lt_iff _ _).2 (hb x y hx hy)

theorem Embeds.between {P Q : I → Prop} (hP : ∃ x, P x) (hQ : ∃ x, Q x) (j : J) (h1 : ∀ x, P x → f x < j) (h2 : ∀ x, Q x → j < f x) :
    ∃ c, f c = j ∧ (∀ x, P x → x < c) ∧ ∀ x, Q x → c < x := by
  obtain ⟨x, hx⟩ := hP
  obtain ⟨y, hy⟩ := hQ
  obtain ⟨c, rfl⟩ := hf.convex x y j (h1 x hx).le (h2 y hy).le
  exact ⟨c, rfl, fun x hx => (hf.lt_iff _ _).1 (h1 x hx), fun y hy => (hf.lt_iff _ _).1 (h2 y hy)⟩

theorem SameEnds.touch (h : SameEnds f a a') (h' : SameEnds f b b') (ha : Valid a) (hb : Valid b) : Touch a' b' ↔ Touch a b := by
  unfold Touch
  rw [h.overlap hf h']
  refine and_congr_right fun _ => ?_
  constructor
  · intro hj p
    have := hj (f p)
    simp only [h.forall_mem hf, h'.forall_mem hf, hf.lt_iff] at this
    exact this
  · intro hp j
    simp only [h.forall_mem hf, h'.forall_mem hf]
    refine ⟨fun ⟨h1, h2⟩ => ?_, fun ⟨h1, h2⟩ => ?_⟩
    · obtain ⟨c, -, h3, h4⟩ := hf.between (P := fun x => Mem x a) (Q := fun x => Mem x b) ha hb j h1 h2
      exact (hp c).1 ⟨h3, h4⟩
    · obtain ⟨c, -, h3, h4⟩ := hf.between (P := fun x => Mem x b) (Q := fun x => Mem x a) hb ha j h1 h2
      exact (hp c).2 ⟨h3, h4⟩

theorem SameEnds.strictlyInside (h : SameEnds f a a') (h' : SameEnds f b b') : StrictlyInside a' b' ↔ StrictlyInside a b := by
  unfold StrictlyInside
  simp only [h.forall_mem hf]
  refine and_congr ⟨?_, ?_⟩ ⟨?_, ?_⟩
  · rintro ⟨j, hj, h1⟩
    obtain ⟨c, rfl, hc⟩ := (h'.mem_iff hf j).1 hj
    exact ⟨c, hc, fun x hx => (hf.lt_iff _ _).1 (h1 x hx)⟩
  · rintro ⟨c, hc, h1⟩; exact ⟨f c, (h'.mem hf c).2 hc, fun x hx => (hf.lt_iff _ _).2 (h1 x hx)⟩
  · rintro ⟨j, hj, h1⟩
    obtain ⟨c, rfl, hc⟩ := (h'.mem_iff hf j).1 hj
    exact ⟨c, hc, fun x hx => (hf.lt_iff _ _).1 (h1 x hx)⟩
  · rintro ⟨c, hc, h1⟩; exact ⟨f c, (h'.mem hf c).2 hc, fun x hx => (hf.lt_iff _ _).2 (h1 x hx)⟩

omit hf in
theorem sameEnds_widen (i : Interval I) : SameEnds f i (i.widen f) := ⟨rfl, rfl⟩

/-- an interval with the images of the points satisfying `P` is the image of an interval with the points satisfying `P` -/
theorem describes_widen {P : I → Prop} {P' : J → Prop} (hP : ∀ j, P' j ↔ ∃ c, f c = j ∧ P c) (i' : Interval J) :
    Describes i' P' ↔ ∃ i : Interval I, i' = i.widen f ∧ Describes i P := by
  have hP2 : ∀ c, P' (f c) ↔ P c := fun c => (hP _).trans ⟨fun ⟨d, hd, h⟩ => hf.inj hd ▸ h, fun h => ⟨c, rfl, h⟩⟩
  constructor
  · rintro ⟨⟨j, hj⟩, h⟩
    have hv : i'.start ≤ i'.stop := le_trans hj.1 hj.2
    obtain ⟨s, hs, -⟩ := (hP _).1 ((h i'.start).1 ⟨le_refl _, hv⟩)
    obtain ⟨t, ht, -⟩ := (hP _).1 ((h i'.stop).1 ⟨hv, le_refl _⟩)
    have hi : i' = (⟨s, t⟩ : Interval I).widen f := by cases i'; simp only [Interval.widen] at *; rw [hs, ht]
    refine ⟨⟨s, t⟩, hi, ?_, fun p => ?_⟩
    · rw [← (sameEnds_widen (f := f) ⟨s, t⟩).valid hf, ← hi]; exact ⟨j, hj⟩
    · rw [← (sameEnds_widen (f := f) ⟨s, t⟩).mem hf, ← hi, h, hP2]
  · rintro ⟨i, rfl, hv, h⟩
    refine ⟨((sameEnds_widen i).valid hf).2 hv, fun j => ?_⟩
    rw [(sameEnds_widen i).mem_iff hf, hP]
    exact exists_congr fun c => and_congr_right fun _ => h c
end

/-! ## Sets of entries -/

/-- the entries over the wider point type -/
def widenSet (φ : K → K') (S : Set (K × V)) : Set (K' × V) := {e | ∃ d ∈ S, e = (φ d.1, d.2)}

theorem widenSet_union (S T : Set (K × V)) : widenSet φ (S ∪ T) = widenSet φ S ∪ widenSet φ T := by
  ext e
  constructor
  · rintro ⟨d, hd | hd, rfl⟩
    · exact Or.inl ⟨d, hd, rfl⟩
    · exact Or.inr ⟨d, hd, rfl⟩
  · rintro (⟨d, hd, rfl⟩ | ⟨d, hd, rfl⟩)
    · exact ⟨d, Or.inl hd, rfl⟩
    · exact ⟨d, Or.inr hd, rfl⟩

theorem widenSet_single (k : K) (v : V) : widenSet φ {(k, v)} = {(φ k, v)} := by
  ext e
  constructor
  · rintro ⟨d, hd, rfl⟩; rw [Set.mem_singleton_iff] at hd; subst hd; rfl
  · intro h; rw [Set.mem_singleton_iff] at h; subst h; exact ⟨(k, v), rfl, rfl⟩

theorem widenSet_sep (S : Set (K × V)) {P : K × V → Prop} {P' : K' × V → Prop} (h : ∀ d ∈ S, P' (φ d.1, d.2) ↔ P d) :
    widenSet φ {e | e ∈ S ∧ P e} = {e | e ∈ widenSet φ S ∧ P' e} := by
  ext e
  constructor
  · rintro ⟨d, ⟨hd, hp⟩, rfl⟩; exact ⟨⟨d, hd, rfl⟩, (h d hd).2 hp⟩
  · rintro ⟨⟨d, hd, rfl⟩, hp⟩; exact ⟨d, ⟨hd, (h d hd).1 hp⟩, rfl⟩

theorem widenSet_exists (S : Set (K × V)) {P : K × V → Prop} {P' : K' × V → Prop} (h : ∀ d ∈ S, P' (φ d.1, d.2) ↔ P d) :
    (∃ e ∈ widenSet φ S, P' e) ↔ ∃ d ∈ S, P d := by
  constructor
  · rintro ⟨_, ⟨d, hd, rfl⟩, hp⟩; exact ⟨d, hd, (h d hd).1 hp⟩
  · rintro ⟨d, hd, hp⟩; exact ⟨_, ⟨d, hd, rfl⟩, (h d hd).2 hp⟩

section
variable (hf : Embeds f) (hφ : Widens f φ)
include hf hφ

theorem lists_widen {l : List (K × V)} {S : Set (K × V)} (h : Lists l S) : Lists (l.map (Prod.map φ id)) (widenSet φ S) := by
  refine ⟨⟨?_, ?_⟩, fun e => ?_⟩
  · intro e he
    obtain ⟨d, hd, rfl⟩ := List.mem_map.1 he
    exact ((hφ.ends d.1).valid hf).2 (h.1.1 d hd)
  · refine List.pairwise_map.2 (h.1.2.imp fun {a b} hab => ?_)
    exact ((hφ.ends a.1).before hf (hφ.ends b.1)).2 hab
  · rw [List.mem_map]
    constructor
    · rintro ⟨d, hd, rfl⟩; exact ⟨d, (h.2 d).1 hd, rfl⟩
    · rintro ⟨d, hd, rfl⟩; exact ⟨d, (h.2 d).2 hd, rfl⟩

theorem covered_widen (S : Set (K × V)) (j : J) : Covered (widenSet φ S) j ↔ ∃ c, f c = j ∧ Covered S c := by
  constructor
  · rintro ⟨_, ⟨d, hd, rfl⟩, hj⟩
    obtain ⟨c, rfl, hc⟩ := ((hφ.ends d.1).mem_iff hf j).1 hj
    exact ⟨c, rfl, d, hd, hc⟩
  · rintro ⟨c, rfl, d, hd, hc⟩; exact ⟨_, ⟨d, hd, rfl⟩, ((hφ.ends d.1).mem hf c).2 hc⟩

theorem covered_widen' (S : Set (K × V)) (c : I) : Covered (widenSet φ S) (f c) ↔ Covered S c := by
  rw [covered_widen hf hφ]
  exact ⟨fun ⟨d, hd, h⟩ => hf.inj hd ▸ h, fun h => ⟨c, rfl, h⟩⟩

theorem mergedKey_widen [LawfulPoint I] [LawfulInterval I K] {k r : K} {T : Set (K × V)} (hk : Valid k) (h : MergedKey k T r) :
    MergedKey (φ k) (widenSet φ T) (φ r) := by
  have hs : ∀ d : K × V, StrictlyInside (φ d.1) (φ k) ↔ StrictlyInside d.1 k := fun d => (hφ.ends _).strictlyInside hf (hφ.ends _)
  refine ⟨fun j => ?_, fun hT => ?_, fun hT => ?_⟩
  · rw [(hφ.ends r).mem_iff hf, (hφ.ends k).mem_iff hf]
    constructor
    · rintro ⟨c, rfl, hc⟩
      rcases (h.1 c).1 hc with hc | ⟨d, hd, hc⟩
      · exact Or.inl ⟨c, rfl, hc⟩
      · exact Or.inr ⟨_, ⟨d, hd, rfl⟩, ((hφ.ends d.1).mem hf c).2 hc⟩
    · rintro (⟨c, rfl, hc⟩ | ⟨_, ⟨d, hd, rfl⟩, hj⟩)
      · exact ⟨c, rfl, (h.1 c).2 (Or.inl hc)⟩
      · obtain ⟨c, rfl, hc⟩ := ((hφ.ends d.1).mem_iff hf j).1 hj
        exact ⟨c, rfl, (h.1 c).2 (Or.inr ⟨d, hd, hc⟩)⟩
  · rw [h.2.1 fun d hd => (hs d).1 (hT _ ⟨d, hd, rfl⟩)]
  · obtain ⟨_, ⟨d, hd, rfl⟩, hn⟩ := hT
    obtain ⟨i, rfl⟩ := h.2.2 ⟨d, hd, mt (hs d).2 hn⟩
    obtain ⟨p, hp⟩ := hk
    exact ⟨_, hφ.of_eq i ⟨p, mem_ofInterval.1 ((h.1 p).2 (Or.inl hp))⟩⟩

theorem cutReturned_widen (S : Set (K × V)) {q : A} {q' : A'} (hq : SameEnds f q q') :
    widenSet φ (CutReturned S q) = CutReturned (widenSet φ S) q' := by
  have hd : ∀ (d : K) (i' : Interval J), Describes i' (fun p => Mem p (φ d) ∧ Mem p q') ↔
      ∃ i : Interval I, i' = i.widen f ∧ Describes i (fun p => Mem p d ∧ Mem p q) := fun d =>
    describes_widen hf fun j => by
      rw [(hφ.ends d).mem_iff hf, hq.mem_iff hf]
      exact ⟨fun ⟨⟨c, h1, h2⟩, e, h3, h4⟩ => ⟨c, h1, h2, hf.inj (h3.trans h1.symm) ▸ h4⟩, fun ⟨c, h1, h2, h3⟩ => ⟨⟨c, h1, h2⟩, c, h1, h3⟩⟩
  ext e
  constructor
  · rintro ⟨_, ⟨d, hdS, i, rfl, hi⟩, rfl⟩
    exact ⟨_, ⟨d, hdS, rfl⟩, i.widen f, by rw [hφ.of_eq i hi.1], (hd _ _).2 ⟨i, rfl, hi⟩⟩
  · rintro ⟨_, ⟨d, hdS, rfl⟩, i', rfl, hi'⟩
    obtain ⟨i, rfl, hi⟩ := (hd _ _).1 hi'
    exact ⟨_, ⟨d, hdS, i, rfl, hi⟩, by rw [hφ.of_eq i hi.1]⟩

theorem cutRemaining_widen (S : Set (K × V)) {q : A} {q' : A'} (hq : SameEnds f q q') :
    widenSet φ (CutRemaining S q) = CutRemaining (widenSet φ S) q' := by
  have hd1 : ∀ (d : K) (i' : Interval J), Describes i' (fun p => Mem p (φ d) ∧ ∀ x, Mem x q' → p < x) ↔
      ∃ i : Interval I, i' = i.widen f ∧ Describes i (fun p => Mem p d ∧ ∀ x, Mem x q → p < x) := fun d =>
    describes_widen hf fun j => by
      rw [(hφ.ends d).mem_iff hf, hq.forall_mem hf]
      exact ⟨fun ⟨⟨c, h1, h2⟩, h3⟩ => ⟨c, h1, h2, fun x hx => (hf.lt_iff _ _).1 (h1 ▸ h3 x hx)⟩,
        fun ⟨c, h1, h2, h3⟩ => ⟨⟨c, h1, h2⟩, fun x hx => h1 ▸ (hf.lt_iff _ _).2 (h3 x hx)⟩⟩
  have hd2 : ∀ (d : K) (i' : Interval J), Describes i' (fun p => Mem p (φ d) ∧ ∀ x, Mem x q' → x < p) ↔
      ∃ i : Interval I, i' = i.widen f ∧ Describes i (fun p => Mem p d ∧ ∀ x, Mem x q → x < p) := fun d =>
    describes_widen hf fun j => by
      rw [(hφ.ends d).mem_iff hf, hq.forall_mem hf]
      exact ⟨fun ⟨⟨c, h1, h2⟩, h3⟩ => ⟨c, h1, h2, fun x hx => (hf.lt_iff _ _).1 (h1 ▸ h3 x hx)⟩,
        fun ⟨c, h1, h2, h3⟩ => ⟨⟨c, h1, h2⟩, fun x hx => h1 ▸ (hf.lt_iff _ _).2 (h3 x hx)⟩⟩
  have ho : ∀ d : K, Overlap (φ d) q' ↔ Overlap d q := fun d => (hφ.ends d).overlap hf hq
  ext e
  constructor
  · rintro ⟨_, ⟨hd, hn⟩ | ⟨d, hdS, hov, i, rfl, hi⟩, rfl⟩
    · exact Or.inl ⟨⟨_, hd, rfl⟩, mt (ho _).1 hn⟩
    · refine Or.inr ⟨_, ⟨d, hdS, rfl⟩, (ho _).2 hov, i.widen f, ?_, hi.imp (fun h => (hd1 _ _).2 ⟨i, rfl, h⟩) (fun h => (hd2 _ _).2 ⟨i, rfl, h⟩)⟩
      rw [hφ.of_eq i (hi.elim (fun h => h.1) (fun h => h.1))]
  · rintro (⟨⟨d, hd, rfl⟩, hn⟩ | ⟨_, ⟨d, hdS, rfl⟩, hov, i', rfl, hi'⟩)
    · exact ⟨d, Or.inl ⟨hd, mt (ho _).2 hn⟩, rfl⟩
    · have : ∃ i : Interval I, i' = i.widen f ∧ (Describes i (fun p => Mem p d.1 ∧ ∀ x, Mem x q → p < x) ∨
          Describes i (fun p => Mem p d.1 ∧ ∀ x, Mem x q → x < p)) := by
        rcases hi' with h | h
        · obtain ⟨i, h1, h2⟩ := (hd1 _ _).1 h; exact ⟨i, h1, Or.inl h2⟩
        · obtain ⟨i, h1, h2⟩ := (hd2 _ _).1 h; exact ⟨i, h1, Or.inr h2⟩
      obtain ⟨i, rfl, hi⟩ := this
      exact ⟨_, Or.inr ⟨d, hdS, (ho _).1 hov, i, rfl, hi⟩, by rw [hφ.of_eq i (hi.elim (fun h => h.1) (fun h => h.1))]⟩

/-! ## Gaps -/
variable [LawfulPoint I] [LawfulPoint J]

omit hφ [LawfulPoint I] [LawfulPoint J] in
theorem up_widen {a b : I} [LawfulPoint I] (h : up a = some b) {j : J} (h1 : f a < j) : f b ≤ j := by
  by_contra hc
  rw [not_le] at hc
  obtain ⟨c, rfl⟩ := hf.convex a b j h1.le hc.le
  have := (LawfulPoint.up_some _ _ h).2 c ((hf.lt_iff _ _).1 h1)
  exact absurd ((hf.lt_iff _ _).1 hc) (not_lt.2 this)

omit hφ [LawfulPoint I] [LawfulPoint J] in
theorem down_widen {a b : I} [LawfulPoint I] (h : down a = some b) {j : J} (h1 : j < f a) : j ≤ f b := by
  by_contra hc
  rw [not_le] at hc
  obtain ⟨c, rfl⟩ := hf.convex b a j hc.le h1.le
  have := (LawfulPoint.down_some _ _ h).2 c ((hf.lt_iff _ _).1 h1)
  exact absurd ((hf.lt_iff _ _).1 hc) (not_lt.2 this)

omit hφ in
theorem mem_widenGap (g : Interval I) (c : I) : Mem (f c) (widenGap f g : Interval J) ↔ Mem c g := by
  show (if g.start = MIN then MIN else f g.start) ≤ f c ∧ f c ≤ (if g.stop = MAX then MAX else f g.stop) ↔ g.start ≤ c ∧ c ≤ g.stop
  refine and_congr ?_ ?_
  · split_ifs with h
    · rw [h]; exact iff_of_true (LawfulPoint.min_le _) (LawfulPoint.min_le _)
    · exact hf.le_iff _ _
  · split_ifs with h
    · rw [h]; exact iff_of_true (LawfulPoint.le_max _) (LawfulPoint.le_max _)
    · exact hf.le_iff _ _

omit hφ in
/-- maximal runs of points with a property that the new points have -/
theorem maximalRun_wide {P : I → Prop} {P' : J → Prop} (hP : ∀ j, P' j ↔ ∀ c, f c = j → P c) {g : Interval I} (h : MaximalRun P g) :
    MaximalRun P' (widenGap f g : Interval J) := by
  have hP2 : ∀ c, P' (f c) ↔ P c := fun c => (hP _).trans ⟨fun h => h c rfl, fun h d hd => hf.inj hd ▸ h⟩
  have hg : g.start ≤ g.stop := valid_iff.1 h.1
  obtain ⟨hv, hc, hmax⟩ := h
  refine ⟨?_, ?_, ?_⟩
  · exact ⟨f g.start, (mem_widenGap hf g _).2 ⟨le_refl _, hg⟩⟩
  · intro j hj
    rw [hP]
    rintro c rfl
    exact hc c ((mem_widenGap hf g c).1 hj)
  · intro i hi ⟨x, hx1, hx2⟩ p hp
    constructor
    · show (if g.start = MIN then MIN else f g.start) ≤ p
      split_ifs with h0
      · exact LawfulPoint.min_le _
      · by_contra hlt
        rw [not_le] at hlt
        have hx : f g.start ≤ x := by have := hx1.1; simpa [widenGap, h0, start, stop, ofInterval] using this
        cases hd : down g.start with
        | none => exact h0 (le_antisymm (LawfulPoint.down_none _ hd _) (LawfulPoint.min_le _))
        | some d =>
          have hds := LawfulPoint.down_some _ _ hd
          have hdc : ¬ P d := by
            intro hn
            have := hmax ⟨d, g.start⟩ (fun y hy => by
              by_cases hy' : y = g.start
              · rw [hy']; exact hc _ ⟨le_refl _, hg⟩
              · have : y ≤ d := hds.2 y (lt_of_le_of_ne hy.2 hy')
                rw [le_antisymm this hy.1]; exact hn) ⟨g.start, ⟨le_refl _, hg⟩, ⟨hds.1.le, le_refl _⟩⟩ d ⟨le_refl _, hds.1.le⟩
            exact absurd hds.1 (not_lt.2 this.1)
          refine hdc ((hP2 d).1 (hi (f d) ⟨le_trans hp.1 (down_widen hf hd hlt), ?_⟩))
          exact le_trans (le_trans ((hf.lt_iff _ _).2 hds.1).le hx) hx2.2
    · show p ≤ (if g.stop = MAX then MAX else f g.stop)
      split_ifs with h0
      · exact LawfulPoint.le_max _
      · by_contra hlt
        rw [not_le] at hlt
        have hx : x ≤ f g.stop := by have := hx1.2; simpa [widenGap, h0, start, stop, ofInterval] using this
        cases hd : up g.stop with
        | none => exact h0 (le_antisymm (LawfulPoint.le_max _) (LawfulPoint.up_none _ hd _))
        | some d =>
          have hds := LawfulPoint.up_some _ _ hd
          have hdc : ¬ P d := by
            intro hn
            have := hmax ⟨g.stop, d⟩ (fun y hy => by
              by_cases hy' : y = g.stop
              · rw [hy']; exact hc _ ⟨hg, le_refl _⟩
              · have : d ≤ y := hds.2 y (lt_of_le_of_ne hy.1 (Ne.symm hy'))
                rw [le_antisymm hy.2 this]; exact hn) ⟨g.stop, ⟨hg, le_refl _⟩, ⟨le_refl _, hds.1.le⟩⟩ d ⟨hds.1.le, le_refl _⟩
            exact absurd hds.1 (not_lt.2 this.2)
          refine hdc ((hP2 d).1 (hi (f d) ⟨?_, le_trans (up_widen hf hd hlt) hp.2⟩))
          exact le_trans hx2.1 (le_trans hx ((hf.lt_iff _ _).2 hds.1).le)

omit hφ in
/-- the maximal runs over the wider type that contain a point of the old type -/
theorem run_wide {P : I → Prop} {P' : J → Prop} (hP : ∀ j, P' j ↔ ∀ c, f c = j → P c)
    (hex : ∀ c, P c → ∃ g : Interval I, MaximalRun P g ∧ Mem c g) {g' : Interval J} {c : I} (hg : MaximalRun P' g') (hc : Mem (f c) g') :
    ∃ g : Interval I, MaximalRun P g ∧ Mem c g ∧ g' = widenGap f g := by
  obtain ⟨g, h1, h2⟩ := hex c ((hP _).1 (hg.2.1 _ hc) c rfl)
  exact ⟨g, h1, h2, MaximalRun.unique hg (maximalRun_wide hf hP h1) hc ((mem_widenGap hf g c).2 h2)⟩

omit hφ [LawfulPoint I] [LawfulPoint J] in
omit hf in
theorem widenGap_of [LawfulInterval I K] (i : Interval I) : (widenGap f (ofInterval i : K) : K') = ofInterval (widenGap f i : Interval J) := by
  simp only [widenGap, LawfulInterval.start_of, LawfulInterval.stop_of]; rfl

omit hφ in
theorem listsRuns_wide [LawfulInterval I K] [LawfulInterval J K'] {P : I → Prop} {P' : J → Prop} (hP : ∀ j, P' j ↔ ∀ c, f c = j → P c)
    (hex : ∀ c, P c → ∃ g : Interval I, MaximalRun P g ∧ Mem c g) {l : List K} {q : A} {q' : A'}
    (hq : SameEnds f q q') (hl : ListsIntervals l (fun i => MaximalRun P i ∧ Overlap i q)) :
    ListsIntervals (l.map (widenGap f : K → K')) (fun i => MaximalRun P' i ∧ Overlap i q') := by
  obtain ⟨⟨h1, h2⟩, h3⟩ := hl
  refine ⟨⟨?_, ?_⟩, fun k' => ?_⟩
  · intro k' hk'
    obtain ⟨k, hk, rfl⟩ := List.mem_map.1 hk'
    obtain ⟨i, rfl, hi, -⟩ := (h3 k).1 hk
    rw [widenGap_of]
    obtain ⟨p, hp⟩ := (maximalRun_wide hf hP hi).1
    exact ⟨p, mem_ofInterval.2 hp⟩
  · refine List.pairwise_map.2 (List.Pairwise.imp_of_mem ?_ h2)
    intro a b ha hb hab x y hx hy
    have ha1 := valid_iff.1 (h1 a ha)
    have hb1 := valid_iff.1 (h1 b hb)
    have hlt : stop a < start b := hab _ _ ⟨ha1, le_refl _⟩ ⟨le_refl _, hb1⟩
    have hx := hx.2
    have hy := hy.1
    simp only [widenGap, LawfulInterval.start_of, LawfulInterval.stop_of] at hx hy
    rw [if_neg (ne_of_lt (lt_of_lt_of_le hlt (LawfulPoint.le_max _)))] at hx
    rw [if_neg (ne_of_gt (lt_of_le_of_lt (LawfulPoint.min_le _) hlt))] at hy
    exact lt_of_le_of_lt hx (lt_of_lt_of_le ((hf.lt_iff _ _).2 hlt) hy)
  · rw [List.mem_map]
    constructor
    · rintro ⟨k, hk, rfl⟩
      obtain ⟨i, rfl, hi, c, hc, hcq⟩ := (h3 k).1 hk
      exact ⟨_, widenGap_of i, maximalRun_wide hf hP hi, f c, (mem_widenGap hf i c).2 hc, (hq.mem hf c).2 hcq⟩
    · rintro ⟨i', rfl, hi', j, hj, hjq⟩
      obtain ⟨c, rfl, hc⟩ := (hq.mem_iff hf j).1 hjq
      obtain ⟨g, h4, h5, rfl⟩ := run_wide hf hP hex hi' hj
      exact ⟨ofInterval g, (h3 _).2 ⟨g, rfl, h4, c, h5, hc⟩, widenGap_of g⟩

theorem uncovered_wide (S : Set (K × V)) (j : J) : ¬ Covered (widenSet φ S) j ↔ ∀ c, f c = j → ¬ Covered S c := by
  rw [covered_widen hf hφ]; push Not; rfl

/-- a gap of the wider map -/
theorem maximalRun_widen {S : Set (K × V)} {g : Interval I} (h : MaximalRun (fun p => ¬ Covered S p) g) :
    MaximalRun (fun p => ¬ Covered (widenSet φ S) p) (widenGap f g : Interval J) := maximalRun_wide hf (uncovered_wide hf hφ S) h

omit hf hφ [LawfulPoint J] in
/-- every point outside the entries is in a gap -/
theorem exists_run [LawfulInterval I K] {m : NoditMap K V} (h : WF m.iter) {c : I} (hc : ¬ Covered m.entrySet c) :
    ∃ g : Interval I, MaximalRun (fun p => ¬ Covered m.entrySet p) g ∧ Mem c g := by
  obtain ⟨r, -, h1, h2⟩ := spec_getKeyValueAtPoint h c
  cases r with
  | ok e => have := (h1 e).1 rfl; exact absurd ⟨e, this.1, this.2⟩ hc
  | error g => obtain ⟨i, -, h3, h4⟩ := h2 g rfl; exact ⟨i, h3, h4⟩

/-- the gaps of the wider map that contain a point of the old type -/
theorem run_of_widen [LawfulInterval I K] {m : NoditMap K V} (h : WF m.iter) {g' : Interval J} {c : I}
    (hg : MaximalRun (fun p => ¬ Covered (widenSet φ m.entrySet) p) g') (hc : Mem (f c) g') :
    ∃ g : Interval I, MaximalRun (fun p => ¬ Covered m.entrySet p) g ∧ Mem c g ∧ g' = widenGap f g :=
  run_wide hf (uncovered_wide hf hφ _) (fun _ hc => exists_run h hc) hg hc

theorem gapsUntrimmed_widen [LawfulInterval I K] [LawfulInterval J K'] {m : NoditMap K V} (h : WF m.iter) {l : List K} {q : A} {q' : A'}
    (hq : SameEnds f q q') (hl : ListsIntervals l (fun i => MaximalRun (fun p => ¬ Covered m.entrySet p) i ∧ Overlap i q)) :
    ListsIntervals (l.map (widenGap f : K → K'))
      (fun i => MaximalRun (fun p => ¬ Covered (widenSet φ m.entrySet) p) i ∧ Overlap i q') :=
  listsRuns_wide hf (uncovered_wide hf hφ _) (fun _ hc => exists_run h hc) hq hl

theorem gapsTrimmed_widen [LawfulInterval I K] [LawfulInterval J K'] {m : NoditMap K V} (h : WF m.iter) {l : List K} {q : A} {q' : A'}
    (hq : SameEnds f q q') (hl : ListsIntervals l (fun i => ∃ g, MaximalRun (fun p => ¬ Covered m.entrySet p) g ∧
        Describes i (fun p => Mem p g ∧ Mem p q))) :
    ListsIntervals (l.map φ) (fun i => ∃ g, MaximalRun (fun p => ¬ Covered (widenSet φ m.entrySet) p) g ∧
        Describes i (fun p => Mem p g ∧ Mem p q')) := by
  obtain ⟨⟨h1, h2⟩, h3⟩ := hl
  have hd : ∀ (g : Interval I) (i' : Interval J), Describes i' (fun p => Mem p (widenGap f g : Interval J) ∧ Mem p q') ↔
      ∃ i : Interval I, i' = i.widen f ∧ Describes i (fun p => Mem p g ∧ Mem p q) := fun g =>
    describes_widen hf fun j => by
      rw [hq.mem_iff hf]
      exact ⟨fun ⟨h1, c, h2, h3⟩ => ⟨c, h2, (mem_widenGap hf g c).1 (h2 ▸ h1), h3⟩,
        fun ⟨c, h1, h2, h3⟩ => ⟨h1 ▸ (mem_widenGap hf g c).2 h2, c, h1, h3⟩⟩
  refine ⟨⟨?_, ?_⟩, fun k' => ?_⟩
  · intro k' hk'
    obtain ⟨k, hk, rfl⟩ := List.mem_map.1 hk'
    exact ((hφ.ends k).valid hf).2 (h1 k hk)
  · exact List.pairwise_map.2 (h2.imp fun {a b} hab => ((hφ.ends a).before hf (hφ.ends b)).2 hab)
  · rw [List.mem_map]
    constructor
    · rintro ⟨k, hk, rfl⟩
      obtain ⟨i, rfl, g, hg, hi⟩ := (h3 k).1 hk
      exact ⟨i.widen f, hφ.of_eq i hi.1, _, maximalRun_widen hf hφ hg, (hd _ _).2 ⟨i, rfl, hi⟩⟩
    · rintro ⟨i', rfl, g', hg', hi'⟩
      obtain ⟨j, hj⟩ := hi'.1
      obtain ⟨h4, h5⟩ := (hi'.2 j).1 hj
      obtain ⟨c, rfl, hc⟩ := (hq.mem_iff hf j).1 h5
      obtain ⟨g, h6, h7, rfl⟩ := run_of_widen hf hφ h hg' h4
      obtain ⟨i, rfl, hi⟩ := (hd _ _).1 hi'
      exact ⟨ofInterval i, (h3 _).2 ⟨i, rfl, g, h6, hi⟩, hφ.of_eq i hi.1⟩
end

/-! ## Histories -/

/-- the same call over the wider point type; a closure that changes values must do to them what the old one does -/
inductive Spec.Op.Widened (f : I → J) (φ : K → K') : Op I K V → Op J K' V → Prop
  | insertStrict (k v) : Widened f φ (.insertStrict k v) (.insertStrict (φ k) v)
  | insertMergeTouching (k v) : Widened f φ (.insertMergeTouching k v) (.insertMergeTouching (φ k) v)
  | insertMergeTouchingIfValuesEqual (k v) :
    Widened f φ (.insertMergeTouchingIfValuesEqual k v) (.insertMergeTouchingIfValuesEqual (φ k) v)
  | insertMergeOverlapping (k v) : Widened f φ (.insertMergeOverlapping k v) (.insertMergeOverlapping (φ k) v)
  | insertMergeTouchingOrOverlapping (k v) :
    Widened f φ (.insertMergeTouchingOrOverlapping k v) (.insertMergeTouchingOrOverlapping (φ k) v)
  | insertOverwrite (k v) : Widened f φ (.insertOverwrite k v) (.insertOverwrite (φ k) v)
  | cut (q) : Widened f φ (.cut q) (.cut (q.widen f))
  | removeOverlapping (q) : Widened f φ (.removeOverlapping q) (.removeOverlapping (q.widen f))
  | overlapping (q) : Widened f φ (.overlapping q) (.overlapping (q.widen f))
  | overlaps (q) : Widened f φ (.overlaps q) (.overlaps (q.widen f))
  | gapsUntrimmed (q) : Widened f φ (.gapsUntrimmed q) (.gapsUntrimmed (q.widen f))
  | gapsTrimmed (q) : Widened f φ (.gapsTrimmed q) (.gapsTrimmed (q.widen f))
  | containsInterval (q) : Widened f φ (.containsInterval q) (.containsInterval (q.widen f))
  | overlappingMut (q) {u u'} (h : ∀ k v, u' (φ k) v = u k v) : Widened f φ (.overlappingMut q u) (.overlappingMut (q.widen f) u')
  | getAtPoint (p) : Widened f φ (.getAtPoint p) (.getAtPoint (f p))
  | getKeyValueAtPoint (p) : Widened f φ (.getKeyValueAtPoint p) (.getKeyValueAtPoint (f p))
  | containsPoint (p) : Widened f φ (.containsPoint p) (.containsPoint (f p))
  | getAtPointMut (p u) : Widened f φ (.getAtPointMut p u) (.getAtPointMut (f p) u)
  | iterMut {u u'} (h : ∀ k v, u' (φ k) v = u k v) : Widened f φ (.iterMut u) (.iterMut u')
  | iter : Widened f φ .iter .iter
  | len : Widened f φ .len .len
  | isEmpty : Widened f φ .isEmpty .isEmpty
  | firstKeyValue : Widened f φ .firstKeyValue .firstKeyValue
  | lastKeyValue : Widened f φ .lastKeyValue .lastKeyValue

/-- what the call returns over the wider point type: the same intervals and values. Whole gaps (`gaps_untrimmed`, the error of
`get_key_value_at_point`) that reached the end of the point type reach the end of the wider one. -/
def Spec.Op.widenOut (f : I → J) (φ : K → K') : Op I K V → Out K V → Out K' V
  | .gapsUntrimmed _, .keys l => .keys (l.map (widenGap f))
  | .getKeyValueAtPoint _, .lookup (.error g) => .lookup (.error (widenGap f g))
  | _, o => o.map φ id

section
variable [LawfulPoint I] [LawfulPoint J] [LawfulInterval I K] [LawfulInterval J K'] (hf : Embeds f) (hφ : Widens f φ)
include hf hφ

omit [LawfulPoint J] [LawfulInterval I K] [LawfulInterval J K'] in
theorem optEntry_widen {S : Set (K × V)} {R : K → K → Prop} {R' : K' → K' → Prop} (hR : ∀ a b, R' (φ a) (φ b) ↔ R a b)
    (hS : ∀ e ∈ S, Valid e.1) {r : Option (K × V)}
    (h : ∀ e, r = some e ↔ e ∈ S ∧ ∀ d ∈ S, d ≠ e → R e.1 d.1) (hdisj : ∀ e ∈ S, ∀ d ∈ S, Overlap e.1 d.1 → e = d) :
    ∀ e', r.map (Prod.map φ id) = some e' ↔ e' ∈ widenSet φ S ∧ ∀ d' ∈ widenSet φ S, d' ≠ e' → R' e'.1 d'.1 := by
  intro e'
  rw [Option.map_eq_some_iff]
  constructor
  · rintro ⟨e, he, rfl⟩
    obtain ⟨h1, h2⟩ := (h e).1 he
    refine ⟨⟨e, h1, rfl⟩, ?_⟩
    rintro _ ⟨d, hd, rfl⟩ hne
    exact (hR _ _).2 (h2 d hd fun hde => hne (by rw [hde]; rfl))
  · rintro ⟨⟨e, he, rfl⟩, h2⟩
    refine ⟨e, (h e).2 ⟨he, fun d hd hne => ?_⟩, rfl⟩
    refine (hR _ _).1 (h2 _ ⟨d, hd, rfl⟩ fun heq => hne ?_)
    refine hdisj d hd e he ?_
    have h4 : φ d.1 = φ e.1 := congrArg Prod.fst heq
    rw [← (hφ.ends d.1).overlap hf (hφ.ends e.1), h4]
    obtain ⟨p, hp⟩ := ((hφ.ends e.1).valid hf).2 (hS e he)
    exact ⟨p, hp, hp⟩

theorem specStep_widen [BEq V] {m : NoditMap K V} (h : WF m.iter) {op : Op I K V} {op' : Op J K' V} (hop : op.Widened f φ op')
    {S' : Set (K × V)} {o : Res (Out K V)} (hs : SpecStep m.entrySet op S' o) :
    SpecStep (widenSet φ m.entrySet) op' (widenSet φ S') (o.map (op.widenOut f φ)) := by
  have hw := fun q : Interval I => sameEnds_widen (f := f) q
  have hbad : op'.Bad ↔ op.Bad := by
    cases hop <;> first | exact Iff.rfl | exact not_congr ((hφ.ends _).valid hf) | exact not_congr ((hw _).valid hf)
  have hval : ∀ e ∈ m.entrySet, Valid e.1 := h.1
  have hdisj : ∀ e ∈ m.entrySet, ∀ d ∈ m.entrySet, Overlap e.1 d.1 → e = d := by
    intro e he d hd ⟨p, hp1, hp2⟩
    obtain ⟨r, -, h1, -⟩ := spec_getKeyValueAtPoint h p
    have h2 := (h1 e).2 ⟨he, hp1⟩
    have h3 := (h1 d).2 ⟨hd, hp2⟩
    rw [h2] at h3; cases h3; rfl
  rcases hs with ⟨hb, rfl, rfl⟩ | ⟨hb, out, rfl, hs⟩
  · exact Or.inl ⟨hbad.2 hb, rfl, rfl⟩
  refine Or.inr ⟨mt hbad.1 hb, _, rfl, ?_⟩
  have ho : ∀ (d : K × V) (k : K), Overlap (φ d.1) (φ k) ↔ Overlap d.1 k := fun d k => (hφ.ends _).overlap hf (hφ.ends k)
  have hoq : ∀ (d : K × V) (q : Interval I), Overlap (φ d.1) (q.widen f) ↔ Overlap d.1 q := fun d q => (hφ.ends _).overlap hf (hw q)
  have ht : ∀ d ∈ m.entrySet, ∀ k : K, Valid k → (Touch (φ d.1) (φ k) ↔ Touch d.1 k) := fun d hd k hk =>
    (hφ.ends _).touch hf (hφ.ends k) (hval d hd) hk
  have hm : ∀ (d : K × V) (p : I), Mem (f p) (φ d.1) ↔ Mem p d.1 := fun d p => (hφ.ends _).mem hf p
  cases hop with
  | insertStrict k v =>
    have he := widenSet_exists m.entrySet (P' := fun e => Overlap e.1 (φ k)) (fun d _ => ho d k)
    refine ⟨fun h1 => ?_, fun h1 => ?_⟩
    · obtain ⟨rfl, rfl⟩ := hs.1 (he.1 h1); exact ⟨rfl, rfl⟩
    · obtain ⟨rfl, rfl⟩ := hs.2 (mt he.2 h1); exact ⟨by rw [widenSet_union, widenSet_single], rfl⟩
  | insertMergeTouching k v =>
    have hk : Valid k := not_not.1 hb
    have he := widenSet_exists m.entrySet (P' := fun e => Overlap e.1 (φ k)) (fun d _ => ho d k)
    refine ⟨fun h1 => ?_, fun h1 => ?_⟩
    · obtain ⟨rfl, rfl⟩ := hs.1 (he.1 h1); exact ⟨rfl, rfl⟩
    · obtain ⟨r, hr, rfl, rfl⟩ := hs.2 (mt he.2 h1)
      refine ⟨φ r, ?_, ?_, rfl⟩
      · rw [← widenSet_sep _ fun d hd => ht d hd k hk]; exact mergedKey_widen hf hφ hk hr
      · rw [widenSet_union, widenSet_single, widenSet_sep _ (P' := fun e => ¬ Touch e.1 (φ k)) fun d hd => not_congr (ht d hd k hk)]
  | insertMergeTouchingIfValuesEqual k v =>
    have hk : Valid k := not_not.1 hb
    have he := widenSet_exists m.entrySet (P' := fun e => Overlap e.1 (φ k)) (fun d _ => ho d k)
    have ht' : ∀ d ∈ m.entrySet, (Touch (φ d.1) (φ k) ∧ (d.2 == v) = true) ↔ (Touch d.1 k ∧ (d.2 == v) = true) :=
      fun d hd => and_congr_left fun _ => ht d hd k hk
    refine ⟨fun h1 => ?_, fun h1 => ?_⟩
    · obtain ⟨rfl, rfl⟩ := hs.1 (he.1 h1); exact ⟨rfl, rfl⟩
    · obtain ⟨r, hr, rfl, rfl⟩ := hs.2 (mt he.2 h1)
      refine ⟨φ r, ?_, ?_, rfl⟩
      · rw [← widenSet_sep _ ht']; exact mergedKey_widen hf hφ hk hr
      · rw [widenSet_union, widenSet_single, widenSet_sep _ (P' := fun e => ¬ (Touch e.1 (φ k) ∧ (e.2 == v) = true)) fun d hd => not_congr (ht' d hd)]
  | insertMergeOverlapping k v =>
    have hk : Valid k := not_not.1 hb
    obtain ⟨r, hr, rfl, rfl⟩ := hs
    refine ⟨φ r, ?_, ?_, rfl⟩
    · rw [← widenSet_sep _ fun d _ => ho d k]; exact mergedKey_widen hf hφ hk hr
    · rw [widenSet_union, widenSet_single, widenSet_sep _ (P' := fun e => ¬ Overlap e.1 (φ k)) fun d _ => not_congr (ho d k)]
  | insertMergeTouchingOrOverlapping k v =>
    have hk : Valid k := not_not.1 hb
    have ht' : ∀ d ∈ m.entrySet, (Touch (φ d.1) (φ k) ∨ Overlap (φ d.1) (φ k)) ↔ (Touch d.1 k ∨ Overlap d.1 k) :=
      fun d hd => or_congr (ht d hd k hk) (ho d k)
    obtain ⟨r, hr, rfl, rfl⟩ := hs
    refine ⟨φ r, ?_, ?_, rfl⟩
    · rw [← widenSet_sep _ ht']; exact mergedKey_widen hf hφ hk hr
    · rw [widenSet_union, widenSet_single, widenSet_sep _ (P' := fun e => ¬ (Touch e.1 (φ k) ∨ Overlap e.1 (φ k))) fun d hd => not_congr (ht' d hd)]
  | insertOverwrite k v =>
    obtain ⟨l, hl, rfl, rfl⟩ := hs
    refine ⟨_, ?_, ?_, rfl⟩
    · rw [← cutReturned_widen hf hφ _ (hφ.ends k)]; exact lists_widen hf hφ hl
    · rw [widenSet_union, widenSet_single, cutRemaining_widen hf hφ _ (hφ.ends k)]
  | cut q =>
    obtain ⟨l, hl, rfl, rfl⟩ := hs
    refine ⟨_, ?_, ?_, rfl⟩
    · rw [← cutReturned_widen hf hφ _ (hw q)]; exact lists_widen hf hφ hl
    · rw [cutRemaining_widen hf hφ _ (hw q)]
  | removeOverlapping q =>
    obtain ⟨l, hl, rfl, rfl⟩ := hs
    refine ⟨_, ?_, ?_, rfl⟩
    · rw [← widenSet_sep _ fun d _ => hoq d q]; exact lists_widen hf hφ hl
    · rw [widenSet_sep _ (P' := fun e => ¬ Overlap e.1 (q.widen f)) fun d _ => not_congr (hoq d q)]
  | overlapping q =>
    obtain ⟨l, hl, rfl, rfl⟩ := hs
    refine ⟨_, ?_, rfl, rfl⟩
    rw [← widenSet_sep _ fun d _ => hoq d q]; exact lists_widen hf hφ hl
  | overlaps q =>
    obtain ⟨b, hb', rfl, rfl⟩ := hs
    exact ⟨b, hb'.trans (widenSet_exists _ (P' := fun e => Overlap e.1 (q.widen f)) fun d _ => hoq d q).symm, rfl, rfl⟩
  | gapsUntrimmed q =>
    obtain ⟨l, hl, rfl, rfl⟩ := hs
    exact ⟨_, gapsUntrimmed_widen hf hφ h (hw q) hl, rfl, rfl⟩
  | gapsTrimmed q =>
    obtain ⟨l, hl, rfl, rfl⟩ := hs
    exact ⟨_, gapsTrimmed_widen hf hφ h (hw q) hl, rfl, rfl⟩
  | containsInterval q =>
    obtain ⟨b, hb', rfl, rfl⟩ := hs
    refine ⟨b, hb'.trans ?_, rfl, rfl⟩
    rw [(hw q).forall_mem hf]
    exact forall_congr' fun c => imp_congr_right fun _ => (covered_widen' hf hφ _ c).symm
  | @overlappingMut q u u' hu =>
    obtain ⟨rfl, rfl⟩ := hs
    refine ⟨?_, rfl⟩
    ext e
    constructor
    · rintro ⟨_, ⟨d, hd, ⟨h1, rfl⟩ | ⟨h1, rfl⟩⟩, rfl⟩
      · exact ⟨_, ⟨d, hd, rfl⟩, Or.inl ⟨(hoq d q).2 h1, by simp [hu]⟩⟩
      · exact ⟨_, ⟨_, hd, rfl⟩, Or.inr ⟨mt (hoq _ q).1 h1, rfl⟩⟩
    · rintro ⟨_, ⟨d, hd, rfl⟩, ⟨h1, rfl⟩ | ⟨h1, rfl⟩⟩
      · exact ⟨_, ⟨d, hd, Or.inl ⟨(hoq d q).1 h1, rfl⟩⟩, by simp [hu]⟩
      · exact ⟨d, ⟨d, hd, Or.inr ⟨mt (hoq _ q).2 h1, rfl⟩⟩, rfl⟩
  | getAtPoint p =>
    obtain ⟨r, hr, rfl, rfl⟩ := hs
    refine ⟨r, fun v => (hr v).trans (widenSet_exists _ (P' := fun e => Mem (f p) e.1 ∧ e.2 = v) fun d _ => and_congr_left fun _ => hm d p).symm,
      rfl, by simp [Op.widenOut, Out.map]⟩
  | getKeyValueAtPoint p =>
    obtain ⟨r, hr, hg, rfl, rfl⟩ := hs
    cases r with
    | ok e =>
      refine ⟨.ok (Prod.map φ id e), fun e' => ?_, fun g hg => by simp at hg, rfl, rfl⟩
      obtain ⟨h1, h2⟩ := (hr e).1 rfl
      constructor
      · rintro ⟨⟩; exact ⟨⟨e, h1, rfl⟩, (hm e p).2 h2⟩
      · rintro ⟨⟨d, hd, rfl⟩, h3⟩
        rw [hdisj e h1 d hd ⟨p, h2, (hm d p).1 h3⟩]; rfl
    | error g =>
      obtain ⟨i, rfl, h1, h2⟩ := hg g rfl
      refine ⟨.error (widenGap f (ofInterval i : K)), fun e' => ?_, ?_, rfl, rfl⟩
      · refine ⟨fun h => by simp at h, ?_⟩
        rintro ⟨⟨d, hd, rfl⟩, h3⟩
        exact absurd ⟨d, hd, (hm d p).1 h3⟩ (h1.2.1 p h2)
      · rintro _ ⟨⟩
        exact ⟨_, widenGap_of i, maximalRun_widen hf hφ h1, (mem_widenGap hf i p).2 h2⟩
  | containsPoint p =>
    obtain ⟨b, hb', rfl, rfl⟩ := hs
    exact ⟨b, hb'.trans (covered_widen' hf hφ _ p).symm, rfl, rfl⟩
  | getAtPointMut p u =>
    obtain ⟨r, hr, rfl, rfl⟩ := hs
    refine ⟨r, fun v => (hr v).trans (widenSet_exists _ (P' := fun e => Mem (f p) e.1 ∧ e.2 = v) fun d _ => and_congr_left fun _ => hm d p).symm,
      ?_, by simp [Op.widenOut, Out.map]⟩
    ext e
    constructor
    · rintro ⟨_, ⟨d, hd, ⟨h1, rfl⟩ | ⟨h1, rfl⟩⟩, rfl⟩
      · exact ⟨_, ⟨d, hd, rfl⟩, Or.inl ⟨(hm d p).2 h1, rfl⟩⟩
      · exact ⟨_, ⟨_, hd, rfl⟩, Or.inr ⟨mt (hm _ p).1 h1, rfl⟩⟩
    · rintro ⟨_, ⟨d, hd, rfl⟩, ⟨h1, rfl⟩ | ⟨h1, rfl⟩⟩
      · exact ⟨_, ⟨d, hd, Or.inl ⟨(hm d p).1 h1, rfl⟩⟩, rfl⟩
      · exact ⟨d, ⟨d, hd, Or.inr ⟨mt (hm _ p).2 h1, rfl⟩⟩, rfl⟩
  | @iterMut u u' hu =>
    obtain ⟨rfl, rfl⟩ := hs
    refine ⟨?_, rfl⟩
    ext e
    constructor
    · rintro ⟨_, ⟨d, hd, rfl⟩, rfl⟩; exact ⟨_, ⟨d, hd, rfl⟩, by simp [hu]⟩
    · rintro ⟨_, ⟨d, hd, rfl⟩, rfl⟩; exact ⟨_, ⟨d, hd, rfl⟩, by simp [hu]⟩
  | iter =>
    obtain ⟨l, hl, rfl, rfl⟩ := hs
    exact ⟨_, lists_widen hf hφ hl, rfl, rfl⟩
  | len =>
    obtain ⟨l, hl, rfl, rfl⟩ := hs
    exact ⟨_, lists_widen hf hφ hl, rfl, by simp [Op.widenOut, Out.map]⟩
  | isEmpty =>
    obtain ⟨b, hb', rfl, rfl⟩ := hs
    refine ⟨b, hb'.trans ⟨?_, ?_⟩, rfl, rfl⟩
    · rintro hn _ ⟨d, hd, rfl⟩; exact hn d hd
    · intro hn d hd; exact hn _ ⟨d, hd, rfl⟩
  | firstKeyValue =>
    obtain ⟨r, hr, rfl, rfl⟩ := hs
    exact ⟨_, optEntry_widen hf hφ (R := Before (I := I)) (R' := Before (I := J)) (fun a b => (hφ.ends a).before hf (hφ.ends b)) hval hr hdisj, rfl, rfl⟩
  | lastKeyValue =>
    obtain ⟨r, hr, rfl, rfl⟩ := hs
    exact ⟨_, optEntry_widen hf hφ (R := fun a b => Before (I := I) b a) (R' := fun a b => Before (I := J) b a)
      (fun a b => (hφ.ends b).before hf (hφ.ends a)) hval hr hdisj, rfl, rfl⟩

theorem run_widen [BEq V] {ops : List (Op I K V)} {ops' : List (Op J K' V)} (hops : List.Forall₂ (Op.Widened f φ) ops ops')
    {m : NoditMap K V} (h : WF m.iter) {m' : NoditMap K' V} (h' : WF m'.iter) (hm : m'.iter = m.iter.map (Prod.map φ id)) :
    (m'.run ops').1.iter = (m.run ops).1.iter.map (Prod.map φ id) ∧
    (m'.run ops').2 = List.zipWith (fun op o => o.map (op.widenOut f φ)) ops (m.run ops).2 := by
  induction hops generalizing m m' with
  | nil => exact ⟨hm, rfl⟩
  | @cons op op' ops ops' hop _ ih =>
    have hset : m'.entrySet = widenSet φ m.entrySet := by
      ext e
      show e ∈ m'.iter ↔ _
      rw [hm, List.mem_map]
      constructor
      · rintro ⟨d, hd, rfl⟩; exact ⟨d, hd, rfl⟩
      · rintro ⟨d, hd, rfl⟩; exact ⟨d, hd, rfl⟩
    rcases step_refines h op with ⟨hb, he⟩ | ⟨hb, m1, o, ho, hw, hs⟩ <;> rcases step_refines h' op' with ⟨hb', he'⟩ | ⟨hb', m1', o', ho', hw', hs'⟩
    · obtain ⟨h1, h2⟩ := ih h h' hm
      simp only [run, he, he', List.zipWith_cons_cons, h1, h2]
      exact ⟨trivial, rfl⟩
    · have := specStep_widen hf hφ h hop (Or.inl ⟨hb, rfl, rfl⟩)
      rw [← hset] at this
      exact absurd (C20_reference_machine_deterministic this (Or.inr ⟨hb', o', rfl, hs'⟩)).2 (by simp [Except.map])
    · have := specStep_widen hf hφ h hop (Or.inr ⟨hb, o, rfl, hs⟩)
      rw [← hset] at this
      exact absurd (C20_reference_machine_deterministic this (Or.inl ⟨hb', rfl, rfl⟩)).2 (by simp [Except.map])
    · have := specStep_widen hf hφ h hop (Or.inr ⟨hb, o, rfl, hs⟩)
      rw [← hset] at this
      obtain ⟨h3, h4⟩ := C20_reference_machine_deterministic this (Or.inr ⟨hb', o', rfl, hs'⟩)
      have hm1 : m1'.iter = m1.iter.map (Prod.map φ id) := by
        have h5 := lists_widen hf hφ (S := m1.entrySet) ⟨hw, fun e => Iff.rfl⟩
        rw [h3] at h5
        exact Lists.unique (S := m1'.entrySet) ⟨hw', fun e => Iff.rfl⟩ h5
      obtain ⟨h1, h2⟩ := ih hw hw' hm1
      simp only [run, ho, ho', List.zipWith_cons_cons, h1, h2]
      exact ⟨trivial, by rw [h4]⟩

/-- **C104**: a program that keeps its intervals in a `NoditMap` behaves the same over a wider point type: whatever it calls, after the
same calls (with the same intervals and points, read over the wider type) the map has the same entries in the same order, and every call
returned the same - or panicked the same. Only gaps that reached the end of the point type now reach the end of the wider one. -/
theorem C104_nodit_map [BEq V] {ops : List (Op I K V)} {ops' : List (Op J K' V)} (hops : List.Forall₂ (Op.Widened f φ) ops ops') :
    ((new : NoditMap K' V).run ops').1.iter = ((new : NoditMap K V).run ops).1.iter.map (Prod.map φ id) ∧
    ((new : NoditMap K' V).run ops').2 = List.zipWith (fun op o => o.map (op.widenOut f φ)) ops ((new : NoditMap K V).run ops).2 :=
  run_widen hf hφ hops wf_new wf_new rfl
end

/-! ## `NoditSet` -/

/-- the same call over the wider point type -/
def Spec.SetCall.widen (f : I → J) (φ : K → K') : SetCall I K → SetCall J K'
  | .insertStrict k => .insertStrict (φ k)
  | .insertMergeTouching k => .insertMergeTouching (φ k)
  | .insertMergeOverlapping k => .insertMergeOverlapping (φ k)
  | .insertMergeTouchingOrOverlapping k => .insertMergeTouchingOrOverlapping (φ k)
  | .insertOverwrite k => .insertOverwrite (φ k)
  | .cut q => .cut (q.widen f)
  | .removeOverlapping q => .removeOverlapping (q.widen f)
  | .overlapping q => .overlapping (q.widen f)
  | .overlaps q => .overlaps (q.widen f)
  | .gapsUntrimmed q => .gapsUntrimmed (q.widen f)
  | .gapsTrimmed q => .gapsTrimmed (q.widen f)
  | .containsInterval q => .containsInterval (q.widen f)
  | .getAtPoint p => .getAtPoint (f p)
  | .containsPoint p => .containsPoint (f p)
  | .iter => .iter
  | .len => .len
  | .isEmpty => .isEmpty
  | .first => .first
  | .last => .last

/-- what the call returns over the wider point type: the same intervals, but whole gaps as in `widenGap` -/
def Spec.SetCall.widenOut (f : I → J) (φ : K → K') : SetCall I K → SetOut K → SetOut K'
  | .gapsUntrimmed _, .keys l => .keys (l.map (widenGap f))
  | .getAtPoint _, .lookup (.error g) => .lookup (.error (widenGap f g))
  | _, o => o.map φ

theorem toMap_widened (ops : List (SetCall I K)) :
    List.Forall₂ (Op.Widened f φ) (ops.map SetCall.toMap) ((ops.map (SetCall.widen f φ)).map SetCall.toMap) := by
  induction ops with
  | nil => exact .nil
  | cons op ops ih => exact .cons (by cases op <;> constructor) ih

theorem ofMap_widenOut (op : SetCall I K) {m m' : NoditMap K Unit} {o : Out K Unit} (h : m.step op.toMap = .ok (m', o)) :
    SetOut.ofMap (op.toMap.widenOut f φ o) = op.widenOut f φ (SetOut.ofMap o) := by
  cases op with
  | gapsUntrimmed q =>
    simp only [SetCall.toMap, NoditMap.step, bind, Except.bind, pure, Except.pure] at h
    cases hg : m.gapsUntrimmed q with
    | error _ => rw [hg] at h; cases h
    | ok l => rw [hg] at h; cases h; rfl
  | getAtPoint p =>
    simp only [SetCall.toMap, NoditMap.step, bind, Except.bind, pure, Except.pure] at h
    cases hg : m.getKeyValueAtPoint p with
    | error _ => rw [hg] at h; cases h
    | ok r => rw [hg] at h; cases h; cases r <;> rfl
  | _ => exact ofMap_map φ o

theorem ofMap_widenOuts (ops : List (SetCall I K)) (m : NoditMap K Unit) :
    (List.zipWith (fun op o => o.map (op.widenOut f φ)) (ops.map SetCall.toMap) (m.run (ops.map SetCall.toMap)).2).map
        (fun o => o.map SetOut.ofMap) =
      List.zipWith (fun op o => o.map (op.widenOut f φ)) ops ((m.run (ops.map SetCall.toMap)).2.map (fun o => o.map SetOut.ofMap)) := by
  induction ops generalizing m with
  | nil => rfl
  | cons op ops ih =>
    simp only [List.map_cons, NoditMap.run]
    cases h : m.step op.toMap with
    | error p => simp only [List.zipWith_cons_cons, List.map_cons, ih]; rfl
    | ok r =>
      simp only [List.zipWith_cons_cons, List.map_cons, ih]
      exact congrArg (· :: _) (congrArg Except.ok (ofMap_widenOut op (m' := r.1) h))

section
variable [LawfulPoint I] [LawfulPoint J] [LawfulInterval I K] [LawfulInterval J K'] (hf : Embeds f) (hφ : Widens f φ)
include hf hφ

/-- **C104** for `NoditSet`. -/
theorem C104_nodit_set (ops : List (SetCall I K)) :
    ((NoditSet.new : NoditSet K').runCalls (ops.map (SetCall.widen f φ))).1.iter =
      ((NoditSet.new : NoditSet K).runCalls ops).1.iter.map φ ∧
    ((NoditSet.new : NoditSet K').runCalls (ops.map (SetCall.widen f φ))).2 =
      List.zipWith (fun op o => o.map (op.widenOut f φ)) ops ((NoditSet.new : NoditSet K).runCalls ops).2 := by
  obtain ⟨h1, h2⟩ := C104_nodit_map (V := Unit) hf hφ (toMap_widened ops)
  rw [runCalls_eq, runCalls_eq]
  constructor
  · have := congrArg (List.map Prod.fst) h1
    refine this.trans ?_
    rw [List.map_map]
    show _ = List.map φ (List.map Prod.fst _)
    rw [List.map_map]; rfl
  · simp only
    rw [show (NoditSet.new : NoditSet K').inner = NoditMap.new from rfl, h2, show (NoditSet.new : NoditSet K).inner = NoditMap.new from rfl]
    exact ofMap_widenOuts ops _
end

/-! ## `Gqdit` -/
section
variable {D : Type} [DecidableEq D]

/-- the same history over the wider point type -/
def Spec.GqHist.widen (f : I → J) (φ : K → K') : GqHist I K D → GqHist J K' D
  | .new => .new
  | .insert g ids k => .insert (g.widen f φ) ids (φ k)
  | .cutWithIdentifiers g ids q => .cutWithIdentifiers (g.widen f φ) ids (q.widen f)
  | .cutAllIdentifiers g q => .cutAllIdentifiers (g.widen f φ) (q.widen f)
  | .append g other => .append (g.widen f φ) (other.widen f φ)

section
variable (hf : Embeds f) (hφ : Widens f φ)
include hf hφ

theorem bad_widen (h : GqHist I K D) : (h.widen f φ).Bad ↔ h.Bad := by
  induction h with
  | new => exact Iff.rfl
  | insert g ids k ih => exact or_congr ih (not_congr ((hφ.ends k).valid hf))
  | cutWithIdentifiers g ids q ih => exact or_congr ih (not_congr ((sameEnds_widen q).valid hf))
  | cutAllIdentifiers g q ih => exact or_congr ih (not_congr ((sameEnds_widen q).valid hf))
  | append g o ih ih' => exact or_congr ih ih'

theorem idsAt_widen (h : GqHist I K D) (c : I) : (h.widen f φ).idsAt (f c) = h.idsAt c := by
  induction h with
  | new => rfl
  | insert g ids k ih =>
    have := (hφ.ends k).mem hf c
    by_cases hc : Mem c k
    · simp only [GqHist.widen, GqHist.idsAt, ih, if_pos hc, if_pos (this.2 hc)]
    · simp only [GqHist.widen, GqHist.idsAt, ih, if_neg hc, if_neg (mt this.1 hc)]
  | cutWithIdentifiers g ids q ih =>
    have := (sameEnds_widen q).mem hf c
    by_cases hc : Mem c q
    · simp only [GqHist.widen, GqHist.idsAt, ih, if_pos hc, if_pos (this.2 hc)]
    · simp only [GqHist.widen, GqHist.idsAt, ih, if_neg hc, if_neg (mt this.1 hc)]
  | cutAllIdentifiers g q ih =>
    have := (sameEnds_widen q).mem hf c
    by_cases hc : Mem c q
    · simp only [GqHist.widen, GqHist.idsAt, ih, if_pos hc, if_pos (this.2 hc)]
    · simp only [GqHist.widen, GqHist.idsAt, ih, if_neg hc, if_neg (mt this.1 hc)]
  | append g o ih ih' => simp only [GqHist.widen, GqHist.idsAt, ih, ih']

theorem idsAt_outside (h : GqHist I K D) {j : J} (hj : ∀ c, f c ≠ j) : (h.widen f φ).idsAt j = ∅ := by
  induction h with
  | new => rfl
  | insert g ids k ih =>
    simp only [GqHist.widen, GqHist.idsAt, ih]
    rw [if_neg]
    intro h; obtain ⟨c, hc, -⟩ := ((hφ.ends k).mem_iff hf j).1 h; exact hj c hc
  | cutWithIdentifiers g ids q ih => simp [GqHist.widen, GqHist.idsAt, ih]
  | cutAllIdentifiers g q ih => simp [GqHist.widen, GqHist.idsAt, ih]
  | append g o ih ih' => simp [GqHist.widen, GqHist.idsAt, ih, ih']

theorem ids_wide (h : GqHist I K D) (j : J) (s : Finset D) : (h.widen f φ).idsAt j ⊆ s ↔ ∀ c, f c = j → h.idsAt c ⊆ s := by
  by_cases hj : ∃ c, f c = j
  · obtain ⟨c, rfl⟩ := hj
    rw [idsAt_widen hf hφ]
    exact ⟨fun h d hd => hf.inj hd ▸ h, fun h => h c rfl⟩
  · rw [idsAt_outside hf hφ h (fun c hc => hj ⟨c, hc⟩)]
    exact iff_of_true (Finset.empty_subset _) fun c hc => absurd ⟨c, hc⟩ hj

variable [LawfulPoint I] [LawfulPoint J] [LawfulInterval I K] [LawfulInterval J K']

/-- **C104** for `Gqdit`: the history over the wider point type panics iff the old one does, the identifiers at the old points are the same
and there are none at the new points, and `gaps_no_identifier` and `gaps_with_identifier` list the same gaps - those that reached the end of
the point type now reach the end of the wider one. -/
theorem C104_gqdit {h : GqHist I K D} {g : Gqdit K D} (hg : Gqdit.eval h = .ok g) :
    ∃ g' : Gqdit K' D, Gqdit.eval (h.widen f φ) = .ok g' ∧ (∀ p, g'.identifiersAtPoint (f p) = g.identifiersAtPoint p) ∧
      (∀ j, (∀ c, f c ≠ j) → g'.identifiersAtPoint j = .ok ∅) ∧
      ∀ q : Interval I, g'.gapsNoIdentifier (q.widen f) = (g.gapsNoIdentifier q).map (List.map (widenGap f)) ∧
        ∀ d, g'.gapsWithIdentifier d (q.widen f) = (g.gapsWithIdentifier d q).map (List.map (widenGap f)) := by
  have hnb : ¬ h.Bad := fun hb => by
    obtain ⟨p, hp⟩ := (C34_history_panics_iff h).1.2 hb
    rw [hg] at hp; cases hp
  rcases eval_rep (h.widen f φ) with ⟨hb, -⟩ | ⟨-, g', hg', hr'⟩
  · exact absurd ((bad_widen hf hφ h).1 hb) hnb
  have hr := rep_of_eval hg
  refine ⟨g', hg', fun p => ?_, fun j hj => ?_, fun q => ?_⟩
  · rw [hr.identifiers, hr'.identifiers, idsAt_widen hf hφ]
  · rw [hr'.identifiers, idsAt_outside hf hφ h hj]
  · by_cases hq : Valid q
    · have hq' := ((sameEnds_widen (f := f) q).valid hf).2 hq
      have hex : ∀ (s : Finset D) (c : I), (s = ∅ ∨ ∃ d, s = {d}) → h.idsAt c ⊆ s →
          ∃ i : Interval I, MaximalRun (fun p => h.idsAt p ⊆ s) i ∧ Mem c i := by
        intro s c hs hc
        have hcv : Valid (⟨c, c⟩ : Interval I) := ⟨c, le_refl _, le_refl _⟩
        have hcm : Mem c (⟨c, c⟩ : Interval I) := ⟨le_refl _, le_refl _⟩
        rcases hs with rfl | ⟨d, rfl⟩
        · obtain ⟨l, h1, h2⟩ := hr.gapsNoIdentifier hcv
          obtain ⟨g1, l', e1, e2, -, -, -, e4⟩ := C72_gaps_no_identifier (prog_fine hnb) hcv
          rw [evalProg_prog, hg] at e1; cases e1
          rw [h1] at e2; cases e2
          simp only [prog_contents, Option.some.injEq] at e4
          obtain ⟨k, hk, hck⟩ := e4 c hcm (Finset.subset_empty.1 hc)
          obtain ⟨i, rfl, hi, -⟩ := (h2.2 k).1 hk
          simp only [← Finset.subset_empty] at hi
          exact ⟨i, hi, mem_ofInterval.1 hck⟩
        · obtain ⟨l, h1, h2⟩ := hr.gapsWithIdentifier d hcv
          obtain ⟨-, l2, -, h1', -, h3⟩ := gaps_points hg d hcv
          rw [h1] at h1'; cases h1'
          obtain ⟨k, hk, hck⟩ := (h3 c hcm).2 (fun x hx => Finset.mem_singleton.1 (hc hx))
          obtain ⟨i, rfl, hi, -⟩ := (h2.2 k).1 hk
          exact ⟨i, hi, mem_ofInterval.1 hck⟩
      refine ⟨?_, fun d => ?_⟩
      · obtain ⟨l, h1, h2⟩ := hr.gapsNoIdentifier hq
        obtain ⟨l', h1', h2'⟩ := hr'.gapsNoIdentifier hq'
        rw [h1, h1']
        simp only [← Finset.subset_empty] at h2 h2'
        have h3 := listsRuns_wide (K' := K') hf (fun j => ids_wide hf hφ h j ∅) (hex ∅ · (Or.inl rfl)) (sameEnds_widen (f := f) q) h2
        exact congrArg _ (ListsIntervals.unique h2' h3)
      · obtain ⟨l, h1, h2⟩ := hr.gapsWithIdentifier d hq
        obtain ⟨l', h1', h2'⟩ := hr'.gapsWithIdentifier d hq'
        rw [h1, h1']
        have h3 := listsRuns_wide (K' := K') hf (fun j => ids_wide hf hφ h j {d}) (hex {d} · (Or.inr ⟨d, rfl⟩)) (sameEnds_widen (f := f) q) h2
        exact congrArg _ (ListsIntervals.unique h2' h3)
    · have hq' := mt ((sameEnds_widen (f := f) q).valid hf).1 hq
      refine ⟨?_, fun d => ?_⟩
      · unfold Gqdit.gapsNoIdentifier
        rw [invalidIntervalPanic_err (mt valid_iff.2 hq), invalidIntervalPanic_err (mt valid_iff.2 hq')]; rfl
      · unfold Gqdit.gapsWithIdentifier
        rw [invalidIntervalPanic_err (mt valid_iff.2 hq), invalidIntervalPanic_err (mt valid_iff.2 hq')]; rfl

/-- **C104** for `Gqdit`: the history over the wider point type panics iff the old one does. -/
theorem C104_gqdit_panics (h : GqHist I K D) (p : Panic) :
    (Gqdit.eval (h.widen f φ) : Res (Gqdit K' D)) = .error p ↔ (Gqdit.eval h : Res (Gqdit K D)) = .error p := by
  rcases eval_rep h with ⟨hb, he⟩ | ⟨hb, g, he, -⟩ <;> rcases eval_rep (h.widen f φ) with ⟨hb', he'⟩ | ⟨hb', g', he', -⟩
  · rw [he, he']; simp
  · exact absurd ((bad_widen hf hφ h).2 hb) hb'
  · exact absurd ((bad_widen hf hφ h).1 hb') hb
  · rw [he, he']; simp
end
end
end
end Nodit
