import Verif.Props.Widening
/-!
# C105: the two directions are alike

Read all points in the opposite order (`MIN` becomes `MAX`, `up` becomes `down`, the start of an interval its end). Then all calls return
the mirror image of what they returned before: the same intervals and values, in the opposite order.
-/
set_option linter.unusedSectionVars false
namespace Nodit
open Spec PointType NoditMap

/-- `f` turns the order of a point type around, and leaves out no point of the other type -/
structure Flips {I J : Type} [PointType I] [PointType J] (f : I → J) : Prop where
  le_iff : ∀ a b, f a ≤ f b ↔ b ≤ a
  surj : ∀ j, ∃ c, f c = j

/-- the interval `q'` starts where `q` ends and ends where `q` starts -/
def SwapEnds {I J A A' : Type} [IntervalType I A] [IntervalType J A'] (f : I → J) (q : A) (q' : A') : Prop :=
  start q' = f (stop q) ∧ stop q' = f (start q)

/-- the mirror image of an interval -/
def Interval.flip {I J : Type} (f : I → J) (i : Interval I) : Interval J := ⟨f i.stop, f i.start⟩

/-- `φ` gives the mirror image of an interval of the user's type, also of one converted from an `Interval` -/
structure Mirrors {I J K K' : Type} [PointType I] [IntervalType I K] [IntervalType J K'] (f : I → J) (φ : K → K') : Prop where
  ends : ∀ k, SwapEnds f k (φ k)
  of_eq : ∀ i : Interval I, Valid i → φ (ofInterval i) = ofInterval (i.flip f)

section
variable {I J K K' A A' B B' V : Type} [PointType I] [PointType J] [IntervalType I K] [IntervalType J K']
  [IntervalType I A] [IntervalType J A'] [IntervalType I B] [IntervalType J B'] {f : I → J} {φ : K → K'}

/-! ## Points and intervals -/
section
variable (hf : Flips f)
include hf

theorem Flips.lt_iff (a b : I) : f a < f b ↔ b < a := by
  rw [← not_le, ← not_le, hf.le_iff]

theorem Flips.inj {a b : I} (h : f a = f b) : a = b :=
  le_antisymm ((hf.le_iff _ _).1 h.ge) ((hf.le_iff _ _).1 h.le)

variable {a : A} {a' : A'} {b : B} {b' : B'}

theorem SwapEnds.mem (h : SwapEnds f a a') (c : I) : Mem (f c) a' ↔ Mem c a := by
  unfold Mem; rw [h.1, h.2, hf.le_iff, hf.le_iff, and_comm]

theorem SwapEnds.mem_iff (h : SwapEnds f a a') (j : J) : Mem j a' ↔ ∃ c, f c = j ∧ Mem c a := by
  constructor
  · intro hj
    obtain ⟨c, rfl⟩ := hf.surj j
    exact ⟨c, rfl, (h.mem hf c).1 hj⟩
  · rintro ⟨c, rfl, hc⟩; exact (h.mem hf c).2 hc

theorem SwapEnds.forall_mem (h : SwapEnds f a a') {P : J → Prop} : (∀ j, Mem j a' → P j) ↔ ∀ c, Mem c a → P (f c) := by
  constructor
  · intro h' c hc; exact h' _ ((h.mem hf c).2 hc)
  · intro h' j hj; obtain ⟨c, rfl, hc⟩ := (h.mem_iff hf j).1 hj; exact h' c hc

theorem Flips.forall {P : J → Prop} : (∀ j, P j) ↔ ∀ c, P (f c) :=
  ⟨fun h c => h _, fun h j => by obtain ⟨c, rfl⟩ := hf.surj j; exact h c⟩

theorem Flips.exists {P : J → Prop} : (∃ j, P j) ↔ ∃ c, P (f c) :=
  ⟨fun ⟨j, h⟩ => by obtain ⟨c, rfl⟩ := hf.surj j; exact ⟨c, h⟩, fun ⟨c, h⟩ => ⟨_, h⟩⟩

theorem SwapEnds.valid (h : SwapEnds f a a') : Valid a' ↔ Valid a := by
  unfold Valid; rw [hf.exists]; exact exists_congr fun c => h.mem hf c

theorem SwapEnds.overlap (h : SwapEnds f a a') (h' : SwapEnds f b b') : Overlap a' b' ↔ Overlap a b := by
  unfold Overlap; rw [hf.exists]; exact exists_congr fun c => and_congr (h.mem hf c) (h'.mem hf c)

theorem SwapEnds.before (h : SwapEnds f a a') (h' : SwapEnds f b b') : Before a' b' ↔ Before b a := by
  constructor
  · intro hb x y hx hy; exact (hf.lt_iff _ _).1 (hb _ _ ((h.mem hf y).2 hy) ((h'.mem hf x).2 hx))
  · intro hb i j hi hj
    obtain ⟨x, rfl, hx⟩ := (h.mem_iff hf i).1 hi
    obtain ⟨y, rfl, hy⟩ := (h'.mem_iff hf j).1 hj
    exact (hf.lt_iff _ _).2 (hb y x hy hx)

theorem SwapEnds.touch (h : SwapEnds f a a') (h' : SwapEnds f b b') : Touch a' b' ↔ Touch a b := by
  unfold Touch
  rw [h.overlap hf h', hf.forall]
  refine and_congr_right fun _ => forall_congr' fun p => ?_
  simp only [h.forall_mem hf, h'.forall_mem hf, hf.lt_iff]
  tauto

theorem SwapEnds.strictlyInside (h : SwapEnds f a a') (h' : SwapEnds f b b') : StrictlyInside a' b' ↔ StrictlyInside a b := by
  unfold StrictlyInside
  simp only [h.forall_mem hf, hf.exists, h'.mem hf, hf.lt_iff]
  tauto

omit hf in
theorem swapEnds_flip (i : Interval I) : SwapEnds f i (i.flip f) := ⟨rfl, rfl⟩

/-- an interval with the images of the points satisfying `P` is the image of an interval with the points satisfying `P` -/
theorem describes_flip {P : I → Prop} {P' : J → Prop} (hP : ∀ c, P' (f c) ↔ P c) (i' : Interval J) :
    Describes i' P' ↔ ∃ i : Interval I, i' = i.flip f ∧ Describes i P := by
  obtain ⟨s, hs⟩ := hf.surj i'.start
  obtain ⟨t, ht⟩ := hf.surj i'.stop
  have hi : i' = (⟨t, s⟩ : Interval I).flip f := by cases i'; simp only [Interval.flip] at *; rw [hs, ht]
  have key : ∀ i : Interval I, Describes (i.flip f) P' ↔ Describes i P := fun i => by
    unfold Describes
    rw [(swapEnds_flip i).valid hf, hf.forall]
    exact and_congr_right fun _ => forall_congr' fun p => iff_congr ((swapEnds_flip i).mem hf p) (hP p)
  constructor
  · intro h; exact ⟨⟨t, s⟩, hi, (key _).1 (hi ▸ h)⟩
  · rintro ⟨i, rfl, h⟩; exact (key i).2 h

theorem exists_flip (i' : Interval J) : ∃ i : Interval I, i' = i.flip f := by
  obtain ⟨s, hs⟩ := hf.surj i'.start
  obtain ⟨t, ht⟩ := hf.surj i'.stop
  exact ⟨⟨t, s⟩, by cases i'; simp only [Interval.flip] at *; rw [hs, ht]⟩

theorem maximalRun_flip {P : I → Prop} {P' : J → Prop} (hP : ∀ c, P' (f c) ↔ P c) (g : Interval I) :
    MaximalRun P' (g.flip f) ↔ MaximalRun P g := by
  have hall : ∀ i : Interval I, (∀ p, Mem p (i.flip f) → P' p) ↔ ∀ p, Mem p i → P p := fun i => by
    rw [(swapEnds_flip i).forall_mem hf]; exact forall_congr' fun c => imp_congr_right fun _ => hP c
  unfold MaximalRun
  rw [(swapEnds_flip g).valid hf, hall]
  refine and_congr_right fun _ => and_congr_right fun _ => ⟨fun h j h1 h2 => ?_, fun h j' h1 h2 => ?_⟩
  · have := h (j.flip f) ((hall j).2 h1) (((swapEnds_flip g).overlap hf (swapEnds_flip j)).2 h2)
    rw [(swapEnds_flip j).forall_mem hf] at this
    exact fun p hp => ((swapEnds_flip g).mem hf p).1 (this p hp)
  · obtain ⟨j, rfl⟩ := exists_flip hf j'
    have := h j ((hall j).1 h1) (((swapEnds_flip g).overlap hf (swapEnds_flip j)).1 h2)
    rw [(swapEnds_flip j).forall_mem hf]
    exact fun p hp => ((swapEnds_flip g).mem hf p).2 (this p hp)
end

section
variable (hf : Flips f) (hφ : Mirrors f φ)
include hf hφ

theorem lists_flip {l : List (K × V)} {S : Set (K × V)} (h : Lists l S) : Lists (l.map (Prod.map φ id)).reverse (widenSet φ S) := by
  refine ⟨⟨?_, ?_⟩, fun e => ?_⟩
  · intro e he
    obtain ⟨d, hd, rfl⟩ := List.mem_map.1 (List.mem_reverse.1 he)
    exact ((hφ.ends d.1).valid hf).2 (h.1.1 d hd)
  · refine List.pairwise_reverse.2 (List.pairwise_map.2 (h.1.2.imp fun {a b} hab => ?_))
    exact ((hφ.ends b.1).before hf (hφ.ends a.1)).2 hab
  · rw [List.mem_reverse, List.mem_map]
    constructor
    · rintro ⟨d, hd, rfl⟩; exact ⟨d, (h.2 d).1 hd, rfl⟩
    · rintro ⟨d, hd, rfl⟩; exact ⟨d, (h.2 d).2 hd, rfl⟩

theorem covered_flip (S : Set (K × V)) (c : I) : Covered (widenSet φ S) (f c) ↔ Covered S c := by
  constructor
  · rintro ⟨_, ⟨d, hd, rfl⟩, hj⟩
    exact ⟨d, hd, ((hφ.ends d.1).mem hf c).1 hj⟩
  · rintro ⟨d, hd, hc⟩; exact ⟨_, ⟨d, hd, rfl⟩, ((hφ.ends d.1).mem hf c).2 hc⟩

theorem mergedKey_flip [LawfulPoint I] [LawfulInterval I K] {k r : K} {T : Set (K × V)} (hk : Valid k) (h : MergedKey k T r) :
    MergedKey (φ k) (widenSet φ T) (φ r) := by
  have hs : ∀ d : K × V, StrictlyInside (φ d.1) (φ k) ↔ StrictlyInside d.1 k := fun d => (hφ.ends _).strictlyInside hf (hφ.ends _)
  refine ⟨hf.forall.2 fun c => ?_, fun hT => ?_, fun hT => ?_⟩
  · rw [(hφ.ends r).mem hf, (hφ.ends k).mem hf, h.1 c]
    exact or_congr Iff.rfl (widenSet_exists T (P' := fun e => Mem (f c) e.1) fun d _ => (hφ.ends d.1).mem hf c).symm
  · rw [h.2.1 fun d hd => (hs d).1 (hT _ ⟨d, hd, rfl⟩)]
  · obtain ⟨_, ⟨d, hd, rfl⟩, hn⟩ := hT
    obtain ⟨i, rfl⟩ := h.2.2 ⟨d, hd, mt (hs d).2 hn⟩
    obtain ⟨p, hp⟩ := hk
    exact ⟨_, hφ.of_eq i ⟨p, mem_ofInterval.1 ((h.1 p).2 (Or.inl hp))⟩⟩

theorem cutReturned_flip (S : Set (K × V)) {q : A} {q' : A'} (hq : SwapEnds f q q') :
    widenSet φ (CutReturned S q) = CutReturned (widenSet φ S) q' := by
  have hd : ∀ (d : K) (i' : Interval J), Describes i' (fun p => Mem p (φ d) ∧ Mem p q') ↔
      ∃ i : Interval I, i' = i.flip f ∧ Describes i (fun p => Mem p d ∧ Mem p q) := fun d =>
    describes_flip hf fun c => and_congr ((hφ.ends d).mem hf c) (hq.mem hf c)
  ext e
  constructor
  · rintro ⟨_, ⟨d, hdS, i, rfl, hi⟩, rfl⟩
    exact ⟨_, ⟨d, hdS, rfl⟩, i.flip f, by rw [hφ.of_eq i hi.1], (hd _ _).2 ⟨i, rfl, hi⟩⟩
  · rintro ⟨_, ⟨d, hdS, rfl⟩, i', rfl, hi'⟩
    obtain ⟨i, rfl, hi⟩ := (hd _ _).1 hi'
    exact ⟨_, ⟨d, hdS, i, rfl, hi⟩, by rw [hφ.of_eq i hi.1]⟩

theorem cutRemaining_flip (S : Set (K × V)) {q : A} {q' : A'} (hq : SwapEnds f q q') :
    widenSet φ (CutRemaining S q) = CutRemaining (widenSet φ S) q' := by
  have hd1 : ∀ (d : K) (i' : Interval J), Describes i' (fun p => Mem p (φ d) ∧ ∀ x, Mem x q' → p < x) ↔
      ∃ i : Interval I, i' = i.flip f ∧ Describes i (fun p => Mem p d ∧ ∀ x, Mem x q → x < p) := fun d =>
    describes_flip hf fun c => and_congr ((hφ.ends d).mem hf c) (by simp only [hq.forall_mem hf, hf.lt_iff])
  have hd2 : ∀ (d : K) (i' : Interval J), Describes i' (fun p => Mem p (φ d) ∧ ∀ x, Mem x q' → x < p) ↔
      ∃ i : Interval I, i' = i.flip f ∧ Describes i (fun p => Mem p d ∧ ∀ x, Mem x q → p < x) := fun d =>
    describes_flip hf fun c => and_congr ((hφ.ends d).mem hf c) (by simp only [hq.forall_mem hf, hf.lt_iff])
  have ho : ∀ d : K, Overlap (φ d) q' ↔ Overlap d q := fun d => (hφ.ends d).overlap hf hq
  ext e
  constructor
  · rintro ⟨_, ⟨hd, hn⟩ | ⟨d, hdS, hov, i, rfl, hi⟩, rfl⟩
    · exact Or.inl ⟨⟨_, hd, rfl⟩, mt (ho _).1 hn⟩
    · refine Or.inr ⟨_, ⟨d, hdS, rfl⟩, (ho _).2 hov, i.flip f, ?_, hi.symm.imp (fun h => (hd1 _ _).2 ⟨i, rfl, h⟩) (fun h => (hd2 _ _).2 ⟨i, rfl, h⟩)⟩
      rw [hφ.of_eq i (hi.elim (fun h => h.1) (fun h => h.1))]
  · rintro (⟨⟨d, hd, rfl⟩, hn⟩ | ⟨_, ⟨d, hdS, rfl⟩, hov, i', rfl, hi'⟩)
    · exact ⟨d, Or.inl ⟨hd, mt (ho _).2 hn⟩, rfl⟩
    · have : ∃ i : Interval I, i' = i.flip f ∧ (Describes i (fun p => Mem p d.1 ∧ ∀ x, Mem x q → p < x) ∨
          Describes i (fun p => Mem p d.1 ∧ ∀ x, Mem x q → x < p)) := by
        rcases hi' with h | h
        · obtain ⟨i, h1, h2⟩ := (hd1 _ _).1 h; exact ⟨i, h1, Or.inr h2⟩
        · obtain ⟨i, h1, h2⟩ := (hd2 _ _).1 h; exact ⟨i, h1, Or.inl h2⟩
      obtain ⟨i, rfl, hi⟩ := this
      exact ⟨_, Or.inr ⟨d, hdS, (ho _).1 hov, i, rfl, hi⟩, by rw [hφ.of_eq i (hi.elim (fun h => h.1) (fun h => h.1))]⟩

theorem listsIntervals_flip [LawfulPoint I] [LawfulInterval I K] [LawfulInterval J K'] {R : Interval I → Prop} {R' : Interval J → Prop}
    (hR : ∀ i, R' (i.flip f) ↔ R i) (hv : ∀ i, R i → Valid i) {l : List K} (hl : ListsIntervals l R) :
    ListsIntervals (l.map φ).reverse R' := by
  obtain ⟨⟨h1, h2⟩, h3⟩ := hl
  refine ⟨⟨?_, ?_⟩, fun k' => ?_⟩
  · intro k' hk'
    obtain ⟨k, hk, rfl⟩ := List.mem_map.1 (List.mem_reverse.1 hk')
    exact ((hφ.ends k).valid hf).2 (h1 k hk)
  · exact List.pairwise_reverse.2 (List.pairwise_map.2 (h2.imp fun {a b} hab => ((hφ.ends b).before hf (hφ.ends a)).2 hab))
  · rw [List.mem_reverse, List.mem_map]
    constructor
    · rintro ⟨k, hk, rfl⟩
      obtain ⟨i, rfl, hi⟩ := (h3 k).1 hk
      exact ⟨i.flip f, hφ.of_eq i (hv i hi), (hR i).2 hi⟩
    · rintro ⟨i', rfl, hi'⟩
      obtain ⟨i, rfl⟩ := exists_flip hf i'
      exact ⟨ofInterval i, (h3 _).2 ⟨i, rfl, (hR i).1 hi'⟩, hφ.of_eq i (hv i ((hR i).1 hi'))⟩

theorem uncovered_flip (S : Set (K × V)) (c : I) : ¬ Covered (widenSet φ S) (f c) ↔ ¬ Covered S c := not_congr (covered_flip hf hφ S c)

theorem gapsUntrimmed_flip [LawfulPoint I] [LawfulInterval I K] [LawfulInterval J K'] {S : Set (K × V)} {l : List K} {q : A} {q' : A'}
    (hq : SwapEnds f q q') (hl : ListsIntervals l (fun i => MaximalRun (fun p => ¬ Covered S p) i ∧ Overlap i q)) :
    ListsIntervals (l.map φ).reverse (fun i => MaximalRun (fun p => ¬ Covered (widenSet φ S) p) i ∧ Overlap i q') :=
  listsIntervals_flip hf hφ (fun i => and_congr (maximalRun_flip hf (uncovered_flip hf hφ S) i) ((swapEnds_flip i).overlap hf hq))
    (fun _ hi => hi.1.1) hl

theorem gapsTrimmed_flip [LawfulPoint I] [LawfulInterval I K] [LawfulInterval J K'] {S : Set (K × V)} {l : List K} {q : A} {q' : A'}
    (hq : SwapEnds f q q') (hl : ListsIntervals l (fun i => ∃ g, MaximalRun (fun p => ¬ Covered S p) g ∧
        Describes i (fun p => Mem p g ∧ Mem p q))) :
    ListsIntervals (l.map φ).reverse (fun i => ∃ g, MaximalRun (fun p => ¬ Covered (widenSet φ S) p) g ∧
        Describes i (fun p => Mem p g ∧ Mem p q')) := by
  have hd : ∀ (g : Interval I) (i : Interval I), Describes (i.flip f) (fun p => Mem p (g.flip f) ∧ Mem p q') ↔
      Describes i (fun p => Mem p g ∧ Mem p q) := fun g i => by
    unfold Describes
    rw [(swapEnds_flip i).valid hf, hf.forall]
    exact and_congr_right fun _ => forall_congr' fun p => iff_congr ((swapEnds_flip i).mem hf p)
      (and_congr ((swapEnds_flip g).mem hf p) (hq.mem hf p))
  refine listsIntervals_flip hf hφ (fun i => ⟨?_, ?_⟩) (fun _ hi => hi.choose_spec.2.1) hl
  · rintro ⟨g', h1, h2⟩
    obtain ⟨g, rfl⟩ := exists_flip hf g'
    exact ⟨g, (maximalRun_flip hf (uncovered_flip hf hφ S) g).1 h1, (hd g i).1 h2⟩
  · rintro ⟨g, h1, h2⟩
    exact ⟨_, (maximalRun_flip hf (uncovered_flip hf hφ S) g).2 h1, (hd g i).2 h2⟩
end

/-! ## Histories -/

/-- the same call on the mirrored map; a closure that changes values must do to them what the old one does -/
inductive Spec.Op.Flipped (f : I → J) (φ : K → K') : Op I K V → Op J K' V → Prop
  | insertStrict (k v) : Flipped f φ (.insertStrict k v) (.insertStrict (φ k) v)
  | insertMergeTouching (k v) : Flipped f φ (.insertMergeTouching k v) (.insertMergeTouching (φ k) v)
  | insertMergeTouchingIfValuesEqual (k v) :
    Flipped f φ (.insertMergeTouchingIfValuesEqual k v) (.insertMergeTouchingIfValuesEqual (φ k) v)
  | insertMergeOverlapping (k v) : Flipped f φ (.insertMergeOverlapping k v) (.insertMergeOverlapping (φ k) v)
  | insertMergeTouchingOrOverlapping (k v) :
    Flipped f φ (.insertMergeTouchingOrOverlapping k v) (.insertMergeTouchingOrOverlapping (φ k) v)
  | insertOverwrite (k v) : Flipped f φ (.insertOverwrite k v) (.insertOverwrite (φ k) v)
  | cut (q) : Flipped f φ (.cut q) (.cut (q.flip f))
  | removeOverlapping (q) : Flipped f φ (.removeOverlapping q) (.removeOverlapping (q.flip f))
  | overlapping (q) : Flipped f φ (.overlapping q) (.overlapping (q.flip f))
  | overlaps (q) : Flipped f φ (.overlaps q) (.overlaps (q.flip f))
  | gapsUntrimmed (q) : Flipped f φ (.gapsUntrimmed q) (.gapsUntrimmed (q.flip f))
  | gapsTrimmed (q) : Flipped f φ (.gapsTrimmed q) (.gapsTrimmed (q.flip f))
  | containsInterval (q) : Flipped f φ (.containsInterval q) (.containsInterval (q.flip f))
  | overlappingMut (q) {u u'} (h : ∀ k v, u' (φ k) v = u k v) : Flipped f φ (.overlappingMut q u) (.overlappingMut (q.flip f) u')
  | getAtPoint (p) : Flipped f φ (.getAtPoint p) (.getAtPoint (f p))
  | getKeyValueAtPoint (p) : Flipped f φ (.getKeyValueAtPoint p) (.getKeyValueAtPoint (f p))
  | containsPoint (p) : Flipped f φ (.containsPoint p) (.containsPoint (f p))
  | getAtPointMut (p u) : Flipped f φ (.getAtPointMut p u) (.getAtPointMut (f p) u)
  | iterMut {u u'} (h : ∀ k v, u' (φ k) v = u k v) : Flipped f φ (.iterMut u) (.iterMut u')
  | iter : Flipped f φ .iter .iter
  | len : Flipped f φ .len .len
  | isEmpty : Flipped f φ .isEmpty .isEmpty
  | firstKeyValue : Flipped f φ .firstKeyValue .lastKeyValue
  | lastKeyValue : Flipped f φ .lastKeyValue .firstKeyValue

/-- the mirror image of what a call returns: mirrored intervals with the same values; lists are reversed -/
def Spec.Out.flip (φ : K → K') : Out K V → Out K' V
  | .entries l => .entries (l.map (Prod.map φ id)).reverse
  | .keys l => .keys (l.map φ).reverse
  | o => o.map φ id

section
variable [LawfulPoint I] [LawfulPoint J] [LawfulInterval I K] [LawfulInterval J K'] (hf : Flips f) (hφ : Mirrors f φ)
include hf hφ

omit [LawfulPoint J] [LawfulInterval I K] [LawfulInterval J K'] in
theorem optEntry_flip {S : Set (K × V)} {R : K → K → Prop} {R' : K' → K' → Prop} (hR : ∀ a b, R' (φ a) (φ b) ↔ R a b)
    (hS : ∀ e ∈ S, Valid e.1) {r : Option (K × V)}
    (h : ∀ e, r = some e ↔ e ∈ S ∧ ∀ d ∈ S, d ≠ e → R e.1 d.1) (hdisj : ∀ e ∈ S, ∀ d ∈ S, Overlap e.1 d.1 → e = d) :
    ∀ e', r.map (Prod.map φ id) = some e' ↔ e' ∈ widenSet φ S ∧ ∀ d' ∈ widenSet φ S, d' ≠ e' → R' e'.1 d'.1 := by
  intro e'
  rw [Option.map_eq_some_iff]
  constructor
  · rintro ⟨e, he, rfl⟩
    obtain ⟨h1, h2⟩ := (h e).1 he
    refine ⟨⟨e, h1, rfl⟩, ?_⟩
    rintro _ ⟨d, hd, rfl⟩ hne
    exact (hR _ _).2 (h2 d hd fun hde => hne (by rw [hde]; rfl))
  · rintro ⟨⟨e, he, rfl⟩, h2⟩
    refine ⟨e, (h e).2 ⟨he, fun d hd hne => ?_⟩, rfl⟩
    refine (hR _ _).1 (h2 _ ⟨d, hd, rfl⟩ fun heq => hne ?_)
    refine hdisj d hd e he ?_
    have h4 : φ d.1 = φ e.1 := congrArg Prod.fst heq
    rw [← (hφ.ends d.1).overlap hf (hφ.ends e.1), h4]
    obtain ⟨p, hp⟩ := ((hφ.ends e.1).valid hf).2 (hS e he)
    exact ⟨p, hp, hp⟩

theorem specStep_flip [BEq V] {m : NoditMap K V} (h : WF m.iter) {op : Op I K V} {op' : Op J K' V} (hop : op.Flipped f φ op')
    {S' : Set (K × V)} {o : Res (Out K V)} (hs : SpecStep m.entrySet op S' o) :
    SpecStep (widenSet φ m.entrySet) op' (widenSet φ S') (o.map (Out.flip φ)) := by
  have hw := fun q : Interval I => swapEnds_flip (f := f) q
  have hbad : op'.Bad ↔ op.Bad := by
    cases hop <;> first | exact Iff.rfl | exact not_congr ((hφ.ends _).valid hf) | exact not_congr ((hw _).valid hf)
  have hval : ∀ e ∈ m.entrySet, Valid e.1 := h.1
  have hdisj : ∀ e ∈ m.entrySet, ∀ d ∈ m.entrySet, Overlap e.1 d.1 → e = d := by
    intro e he d hd ⟨p, hp1, hp2⟩
    obtain ⟨r, -, h1, -⟩ := spec_getKeyValueAtPoint h p
    have h2 := (h1 e).2 ⟨he, hp1⟩
    have h3 := (h1 d).2 ⟨hd, hp2⟩
    rw [h2] at h3; cases h3; rfl
  rcases hs with ⟨hb, rfl, rfl⟩ | ⟨hb, out, rfl, hs⟩
  · exact Or.inl ⟨hbad.2 hb, rfl, rfl⟩
  refine Or.inr ⟨mt hbad.1 hb, _, rfl, ?_⟩
  have ho : ∀ (d : K × V) (k : K), Overlap (φ d.1) (φ k) ↔ Overlap d.1 k := fun d k => (hφ.ends _).overlap hf (hφ.ends k)
  have hoq : ∀ (d : K × V) (q : Interval I), Overlap (φ d.1) (q.flip f) ↔ Overlap d.1 q := fun d q => (hφ.ends _).overlap hf (hw q)
  have ht : ∀ d ∈ m.entrySet, ∀ k : K, Valid k → (Touch (φ d.1) (φ k) ↔ Touch d.1 k) := fun d hd k hk =>
    (hφ.ends _).touch hf (hφ.ends k)
  have hm : ∀ (d : K × V) (p : I), Mem (f p) (φ d.1) ↔ Mem p d.1 := fun d p => (hφ.ends _).mem hf p
  cases hop with
  | insertStrict k v =>
    have he := widenSet_exists m.entrySet (P' := fun e => Overlap e.1 (φ k)) (fun d _ => ho d k)
    refine ⟨fun h1 => ?_, fun h1 => ?_⟩
    · obtain ⟨rfl, rfl⟩ := hs.1 (he.1 h1); exact ⟨rfl, rfl⟩
    · obtain ⟨rfl, rfl⟩ := hs.2 (mt he.2 h1); exact ⟨by rw [widenSet_union, widenSet_single], rfl⟩
  | insertMergeTouching k v =>
    have hk : Valid k := not_not.1 hb
    have he := widenSet_exists m.entrySet (P' := fun e => Overlap e.1 (φ k)) (fun d _ => ho d k)
    refine ⟨fun h1 => ?_, fun h1 => ?_⟩
    · obtain ⟨rfl, rfl⟩ := hs.1 (he.1 h1); exact ⟨rfl, rfl⟩
    · obtain ⟨r, hr, rfl, rfl⟩ := hs.2 (mt he.2 h1)
      refine ⟨φ r, ?_, ?_, rfl⟩
      · rw [← widenSet_sep _ fun d hd => ht d hd k hk]; exact mergedKey_flip hf hφ hk hr
      · rw [widenSet_union, widenSet_single, widenSet_sep _ (P' := fun e => ¬ Touch e.1 (φ k)) fun d hd => not_congr (ht d hd k hk)]
  | insertMergeTouchingIfValuesEqual k v =>
    have hk : Valid k := not_not.1 hb
    have he := widenSet_exists m.entrySet (P' := fun e => Overlap e.1 (φ k)) (fun d _ => ho d k)
    have ht' : ∀ d ∈ m.entrySet, (Touch (φ d.1) (φ k) ∧ (d.2 == v) = true) ↔ (Touch d.1 k ∧ (d.2 == v) = true) :=
      fun d hd => and_congr_left fun _ => ht d hd k hk
    refine ⟨fun h1 => ?_, fun h1 => ?_⟩
    · obtain ⟨rfl, rfl⟩ := hs.1 (he.1 h1); exact ⟨rfl, rfl⟩
    · obtain ⟨r, hr, rfl, rfl⟩ := hs.2 (mt he.2 h1)
      refine ⟨φ r, ?_, ?_, rfl⟩
      · rw [← widenSet_sep _ ht']; exact mergedKey_flip hf hφ hk hr
      · rw [widenSet_union, widenSet_single, widenSet_sep _ (P' := fun e => ¬ (Touch e.1 (φ k) ∧ (e.2 == v) = true)) fun d hd => not_congr (ht' d hd)]
  | insertMergeOverlapping k v =>
    have hk : Valid k := not_not.1 hb
    obtain ⟨r, hr, rfl, rfl⟩ := hs
    refine ⟨φ r, ?_, ?_, rfl⟩
    · rw [← widenSet_sep _ fun d _ => ho d k]; exact mergedKey_flip hf hφ hk hr
    · rw [widenSet_union, widenSet_single, widenSet_sep _ (P' := fun e => ¬ Overlap e.1 (φ k)) fun d _ => not_congr (ho d k)]
  | insertMergeTouchingOrOverlapping k v =>
    have hk : Valid k := not_not.1 hb
    have ht' : ∀ d ∈ m.entrySet, (Touch (φ d.1) (φ k) ∨ Overlap (φ d.1) (φ k)) ↔ (Touch d.1 k ∨ Overlap d.1 k) :=
      fun d hd => or_congr (ht d hd k hk) (ho d k)
    obtain ⟨r, hr, rfl, rfl⟩ := hs
    refine ⟨φ r, ?_, ?_, rfl⟩
    · rw [← widenSet_sep _ ht']; exact mergedKey_flip hf hφ hk hr
    · rw [widenSet_union, widenSet_single, widenSet_sep _ (P' := fun e => ¬ (Touch e.1 (φ k) ∨ Overlap e.1 (φ k))) fun d hd => not_congr (ht' d hd)]
  | insertOverwrite k v =>
    obtain ⟨l, hl, rfl, rfl⟩ := hs
    refine ⟨_, ?_, ?_, rfl⟩
    · rw [← cutReturned_flip hf hφ _ (hφ.ends k)]; exact lists_flip hf hφ hl
    · rw [widenSet_union, widenSet_single, cutRemaining_flip hf hφ _ (hφ.ends k)]
  | cut q =>
    obtain ⟨l, hl, rfl, rfl⟩ := hs
    refine ⟨_, ?_, ?_, rfl⟩
    · rw [← cutReturned_flip hf hφ _ (hw q)]; exact lists_flip hf hφ hl
    · rw [cutRemaining_flip hf hφ _ (hw q)]
  | removeOverlapping q =>
    obtain ⟨l, hl, rfl, rfl⟩ := hs
    refine ⟨_, ?_, ?_, rfl⟩
    · rw [← widenSet_sep _ fun d _ => hoq d q]; exact lists_flip hf hφ hl
    · rw [widenSet_sep _ (P' := fun e => ¬ Overlap e.1 (q.flip f)) fun d _ => not_congr (hoq d q)]
  | overlapping q =>
    obtain ⟨l, hl, rfl, rfl⟩ := hs
    refine ⟨_, ?_, rfl, rfl⟩
    rw [← widenSet_sep _ fun d _ => hoq d q]; exact lists_flip hf hφ hl
  | overlaps q =>
    obtain ⟨b, hb', rfl, rfl⟩ := hs
    exact ⟨b, hb'.trans (widenSet_exists _ (P' := fun e => Overlap e.1 (q.flip f)) fun d _ => hoq d q).symm, rfl, rfl⟩
  | gapsUntrimmed q =>
    obtain ⟨l, hl, rfl, rfl⟩ := hs
    exact ⟨_, gapsUntrimmed_flip hf hφ (hw q) hl, rfl, rfl⟩
  | gapsTrimmed q =>
    obtain ⟨l, hl, rfl, rfl⟩ := hs
    exact ⟨_, gapsTrimmed_flip hf hφ (hw q) hl, rfl, rfl⟩
  | containsInterval q =>
    obtain ⟨b, hb', rfl, rfl⟩ := hs
    refine ⟨b, hb'.trans ?_, rfl, rfl⟩
    rw [(hw q).forall_mem hf]
    exact forall_congr' fun c => imp_congr_right fun _ => (covered_flip hf hφ _ c).symm
  | @overlappingMut q u u' hu =>
    obtain ⟨rfl, rfl⟩ := hs
    refine ⟨?_, rfl⟩
    ext e
    constructor
    · rintro ⟨_, ⟨d, hd, ⟨h1, rfl⟩ | ⟨h1, rfl⟩⟩, rfl⟩
      · exact ⟨_, ⟨d, hd, rfl⟩, Or.inl ⟨(hoq d q).2 h1, by simp [hu]⟩⟩
      · exact ⟨_, ⟨_, hd, rfl⟩, Or.inr ⟨mt (hoq _ q).1 h1, rfl⟩⟩
    · rintro ⟨_, ⟨d, hd, rfl⟩, ⟨h1, rfl⟩ | ⟨h1, rfl⟩⟩
      · exact ⟨_, ⟨d, hd, Or.inl ⟨(hoq d q).1 h1, rfl⟩⟩, by simp [hu]⟩
      · exact ⟨d, ⟨d, hd, Or.inr ⟨mt (hoq _ q).2 h1, rfl⟩⟩, rfl⟩
  | getAtPoint p =>
    obtain ⟨r, hr, rfl, rfl⟩ := hs
    refine ⟨r, fun v => (hr v).trans (widenSet_exists _ (P' := fun e => Mem (f p) e.1 ∧ e.2 = v) fun d _ => and_congr_left fun _ => hm d p).symm,
      rfl, by simp [Out.flip, Out.map]⟩
  | getKeyValueAtPoint p =>
    obtain ⟨r, hr, hg, rfl, rfl⟩ := hs
    cases r with
    | ok e =>
      refine ⟨.ok (Prod.map φ id e), fun e' => ?_, fun g hg => by simp at hg, rfl, rfl⟩
      obtain ⟨h1, h2⟩ := (hr e).1 rfl
      constructor
      · rintro ⟨⟩; exact ⟨⟨e, h1, rfl⟩, (hm e p).2 h2⟩
      · rintro ⟨⟨d, hd, rfl⟩, h3⟩
        rw [hdisj e h1 d hd ⟨p, h2, (hm d p).1 h3⟩]; rfl
    | error g =>
      obtain ⟨i, rfl, h1, h2⟩ := hg g rfl
      refine ⟨.error (φ (ofInterval i)), fun e' => ?_, ?_, rfl, rfl⟩
      · refine ⟨fun h => by simp at h, ?_⟩
        rintro ⟨⟨d, hd, rfl⟩, h3⟩
        exact absurd ⟨d, hd, (hm d p).1 h3⟩ (h1.2.1 p h2)
      · rintro _ ⟨⟩
        exact ⟨_, hφ.of_eq i h1.1, (maximalRun_flip hf (uncovered_flip hf hφ _) i).2 h1, ((swapEnds_flip i).mem hf p).2 h2⟩
  | containsPoint p =>
    obtain ⟨b, hb', rfl, rfl⟩ := hs
    exact ⟨b, hb'.trans (covered_flip hf hφ _ p).symm, rfl, rfl⟩
  | getAtPointMut p u =>
    obtain ⟨r, hr, rfl, rfl⟩ := hs
    refine ⟨r, fun v => (hr v).trans (widenSet_exists _ (P' := fun e => Mem (f p) e.1 ∧ e.2 = v) fun d _ => and_congr_left fun _ => hm d p).symm,
      ?_, by simp [Out.flip, Out.map]⟩
    ext e
    constructor
    · rintro ⟨_, ⟨d, hd, ⟨h1, rfl⟩ | ⟨h1, rfl⟩⟩, rfl⟩
      · exact ⟨_, ⟨d, hd, rfl⟩, Or.inl ⟨(hm d p).2 h1, rfl⟩⟩
      · exact ⟨_, ⟨_, hd, rfl⟩, Or.inr ⟨mt (hm _ p).1 h1, rfl⟩⟩
    · rintro ⟨_, ⟨d, hd, rfl⟩, ⟨h1, rfl⟩ | ⟨h1, rfl⟩⟩
      · exact ⟨_, ⟨d, hd, Or.inl ⟨(hm d p).1 h1, rfl⟩⟩, rfl⟩
      · exact ⟨d, ⟨d, hd, Or.inr ⟨mt (hm _ p).2 h1, rfl⟩⟩, rfl⟩
  | @iterMut u u' hu =>
    obtain ⟨rfl, rfl⟩ := hs
    refine ⟨?_, rfl⟩
    ext e
    constructor
    · rintro ⟨_, ⟨d, hd, rfl⟩, rfl⟩; exact ⟨_, ⟨d, hd, rfl⟩, by simp [hu]⟩
    · rintro ⟨_, ⟨d, hd, rfl⟩, rfl⟩; exact ⟨_, ⟨d, hd, rfl⟩, by simp [hu]⟩
  | iter =>
    obtain ⟨l, hl, rfl, rfl⟩ := hs
    exact ⟨_, lists_flip hf hφ hl, rfl, rfl⟩
  | len =>
    obtain ⟨l, hl, rfl, rfl⟩ := hs
    exact ⟨_, lists_flip hf hφ hl, rfl, by simp [Out.flip, Out.map]⟩
  | isEmpty =>
    obtain ⟨b, hb', rfl, rfl⟩ := hs
    refine ⟨b, hb'.trans ⟨?_, ?_⟩, rfl, rfl⟩
    · rintro hn _ ⟨d, hd, rfl⟩; exact hn d hd
    · intro hn d hd; exact hn _ ⟨d, hd, rfl⟩
  | lastKeyValue =>
    obtain ⟨r, hr, rfl, rfl⟩ := hs
    exact ⟨_, optEntry_flip hf hφ (R := fun a b => Before (I := I) b a) (R' := Before (I := J)) (fun a b => (hφ.ends a).before hf (hφ.ends b)) hval hr hdisj, rfl, rfl⟩
  | firstKeyValue =>
    obtain ⟨r, hr, rfl, rfl⟩ := hs
    exact ⟨_, optEntry_flip hf hφ (R := Before (I := I)) (R' := fun a b => Before (I := J) b a)
      (fun a b => (hφ.ends b).before hf (hφ.ends a)) hval hr hdisj, rfl, rfl⟩

theorem run_flip [BEq V] {ops : List (Op I K V)} {ops' : List (Op J K' V)} (hops : List.Forall₂ (Op.Flipped f φ) ops ops')
    {m : NoditMap K V} (h : WF m.iter) {m' : NoditMap K' V} (h' : WF m'.iter) (hm : m'.iter = (m.iter.map (Prod.map φ id)).reverse) :
    (m'.run ops').1.iter = ((m.run ops).1.iter.map (Prod.map φ id)).reverse ∧
    (m'.run ops').2 = (m.run ops).2.map (Except.map (Out.flip φ)) := by
  induction hops generalizing m m' with
  | nil => exact ⟨hm, rfl⟩
  | @cons op op' ops ops' hop _ ih =>
    have hset : m'.entrySet = widenSet φ m.entrySet := by
      ext e
      show e ∈ m'.iter ↔ _
      rw [hm, List.mem_reverse, List.mem_map]
      constructor
      · rintro ⟨d, hd, rfl⟩; exact ⟨d, hd, rfl⟩
      · rintro ⟨d, hd, rfl⟩; exact ⟨d, hd, rfl⟩
    rcases step_refines h op with ⟨hb, he⟩ | ⟨hb, m1, o, ho, hw, hs⟩ <;> rcases step_refines h' op' with ⟨hb', he'⟩ | ⟨hb', m1', o', ho', hw', hs'⟩
    · obtain ⟨h1, h2⟩ := ih h h' hm
      simp only [run, he, he', List.map_cons, h1, h2]
      exact ⟨trivial, rfl⟩
    · have := specStep_flip hf hφ h hop (Or.inl ⟨hb, rfl, rfl⟩)
      rw [← hset] at this
      exact absurd (C20_reference_machine_deterministic this (Or.inr ⟨hb', o', rfl, hs'⟩)).2 (by simp [Except.map])
    · have := specStep_flip hf hφ h hop (Or.inr ⟨hb, o, rfl, hs⟩)
      rw [← hset] at this
      exact absurd (C20_reference_machine_deterministic this (Or.inl ⟨hb', rfl, rfl⟩)).2 (by simp [Except.map])
    · have := specStep_flip hf hφ h hop (Or.inr ⟨hb, o, rfl, hs⟩)
      rw [← hset] at this
      obtain ⟨h3, h4⟩ := C20_reference_machine_deterministic this (Or.inr ⟨hb', o', rfl, hs'⟩)
      have hm1 : m1'.iter = (m1.iter.map (Prod.map φ id)).reverse := by
        have h5 := lists_flip hf hφ (S := m1.entrySet) ⟨hw, fun e => Iff.rfl⟩
        rw [h3] at h5
        exact Lists.unique (S := m1'.entrySet) ⟨hw', fun e => Iff.rfl⟩ h5
      obtain ⟨h1, h2⟩ := ih hw hw' hm1
      simp only [run, ho, ho', List.map_cons, h1, h2]
      exact ⟨trivial, by rw [h4]⟩

/-- **C105**: make the mirrored calls (mirrored intervals and points, the same values, `first_key_value` for `last_key_value` and vice versa) on
a mirrored `NoditMap`. Then its entries are the mirrored entries in the opposite order, and every call returns the mirror image of what it
returned - lists reversed - or panics as it did. -/
theorem C105_nodit_map [BEq V] {ops : List (Op I K V)} {ops' : List (Op J K' V)} (hops : List.Forall₂ (Op.Flipped f φ) ops ops') :
    ((new : NoditMap K' V).run ops').1.iter = (((new : NoditMap K V).run ops).1.iter.map (Prod.map φ id)).reverse ∧
    ((new : NoditMap K' V).run ops').2 = ((new : NoditMap K V).run ops).2.map (Except.map (Out.flip φ)) :=
  run_flip hf hφ hops wf_new wf_new rfl
end

/-! ## `NoditSet` -/

/-- the mirrored call -/
def Spec.SetCall.flip (f : I → J) (φ : K → K') : SetCall I K → SetCall J K'
  | .insertStrict k => .insertStrict (φ k)
  | .insertMergeTouching k => .insertMergeTouching (φ k)
  | .insertMergeOverlapping k => .insertMergeOverlapping (φ k)
  | .insertMergeTouchingOrOverlapping k => .insertMergeTouchingOrOverlapping (φ k)
  | .insertOverwrite k => .insertOverwrite (φ k)
  | .cut q => .cut (q.flip f)
  | .removeOverlapping q => .removeOverlapping (q.flip f)
  | .overlapping q => .overlapping (q.flip f)
  | .overlaps q => .overlaps (q.flip f)
  | .gapsUntrimmed q => .gapsUntrimmed (q.flip f)
  | .gapsTrimmed q => .gapsTrimmed (q.flip f)
  | .containsInterval q => .containsInterval (q.flip f)
  | .getAtPoint p => .getAtPoint (f p)
  | .containsPoint p => .containsPoint (f p)
  | .iter => .iter
  | .len => .len
  | .isEmpty => .isEmpty
  | .first => .last
  | .last => .first

/-- the mirror image of what a call returns: mirrored intervals; lists are reversed -/
def Spec.SetOut.flip (φ : K → K') : SetOut K → SetOut K'
  | .keys l => .keys (l.map φ).reverse
  | o => o.map φ

theorem toMap_flipped (ops : List (SetCall I K)) :
    List.Forall₂ (Op.Flipped f φ) (ops.map SetCall.toMap) ((ops.map (SetCall.flip f φ)).map SetCall.toMap) := by
  induction ops with
  | nil => exact .nil
  | cons op ops ih => exact .cons (by cases op <;> constructor) ih

theorem ofMap_flip (o : Out K Unit) : SetOut.ofMap (o.flip φ) = (SetOut.ofMap o).flip φ := by
  cases o with
  | entries l => simp [Out.flip, SetOut.ofMap, SetOut.flip, List.map_reverse]
  | keys l => simp [Out.flip, SetOut.ofMap, SetOut.flip]
  | optEntry e => exact (ofMap_map φ (.optEntry e)).trans (by cases e <;> rfl)
  | lookup r => exact (ofMap_map φ (.lookup r)).trans (by cases r <;> rfl)
  | strict r => exact (ofMap_map φ (.strict r)).trans (by cases r <;> rfl)
  | merge r => exact (ofMap_map φ (.merge r)).trans (by cases r <;> rfl)
  | _ => rfl

/-! ## `Gqdit` -/

/-- the mirrored history -/
def Spec.GqHist.flip {D : Type} (f : I → J) (φ : K → K') : GqHist I K D → GqHist J K' D
  | .new => .new
  | .insert g ids k => .insert (g.flip f φ) ids (φ k)
  | .cutWithIdentifiers g ids q => .cutWithIdentifiers (g.flip f φ) ids (q.flip f)
  | .cutAllIdentifiers g q => .cutAllIdentifiers (g.flip f φ) (q.flip f)
  | .append g other => .append (g.flip f φ) (other.flip f φ)

section
variable {D : Type} (hf : Flips f) (hφ : Mirrors f φ)
include hf hφ

theorem bad_flip (h : GqHist I K D) : (h.flip f φ).Bad ↔ h.Bad := by
  induction h with
  | new => exact Iff.rfl
  | insert g ids k ih => exact or_congr ih (not_congr ((hφ.ends k).valid hf))
  | cutWithIdentifiers g ids q ih => exact or_congr ih (not_congr ((swapEnds_flip q).valid hf))
  | cutAllIdentifiers g q ih => exact or_congr ih (not_congr ((swapEnds_flip q).valid hf))
  | append g o ih ih' => exact or_congr ih ih'

theorem idsAt_flip (h : GqHist I K D) (c : I) : (h.flip f φ).idsAt (f c) = h.idsAt c := by
  induction h with
  | new => rfl
  | insert g ids k ih =>
    have := (hφ.ends k).mem hf c
    by_cases hc : Mem c k
    · simp only [GqHist.flip, GqHist.idsAt, ih, if_pos hc, if_pos (this.2 hc)]
    · simp only [GqHist.flip, GqHist.idsAt, ih, if_neg hc, if_neg (mt this.1 hc)]
  | cutWithIdentifiers g ids q ih =>
    have := (swapEnds_flip q).mem hf c
    by_cases hc : Mem c q
    · simp only [GqHist.flip, GqHist.idsAt, ih, if_pos hc, if_pos (this.2 hc)]
    · simp only [GqHist.flip, GqHist.idsAt, ih, if_neg hc, if_neg (mt this.1 hc)]
  | cutAllIdentifiers g q ih =>
    have := (swapEnds_flip q).mem hf c
    by_cases hc : Mem c q
    · simp only [GqHist.flip, GqHist.idsAt, ih, if_pos hc, if_pos (this.2 hc)]
    · simp only [GqHist.flip, GqHist.idsAt, ih, if_neg hc, if_neg (mt this.1 hc)]
  | append g o ih ih' => simp only [GqHist.flip, GqHist.idsAt, ih, ih']

variable [LawfulPoint I] [LawfulPoint J] [LawfulInterval I K] [LawfulInterval J K']

/-- **C105** for `NoditSet`. -/
theorem C105_nodit_set (ops : List (SetCall I K)) :
    ((NoditSet.new : NoditSet K').runCalls (ops.map (SetCall.flip f φ))).1.iter =
      (((NoditSet.new : NoditSet K).runCalls ops).1.iter.map φ).reverse ∧
    ((NoditSet.new : NoditSet K').runCalls (ops.map (SetCall.flip f φ))).2 =
      ((NoditSet.new : NoditSet K).runCalls ops).2.map (Except.map (SetOut.flip φ)) := by
  obtain ⟨h1, h2⟩ := C105_nodit_map (V := Unit) hf hφ (toMap_flipped ops)
  rw [runCalls_eq, runCalls_eq]
  constructor
  · have := congrArg (List.map Prod.fst) h1
    refine this.trans ?_
    rw [List.map_reverse, List.map_map]
    show _ = (List.map φ (List.map Prod.fst _)).reverse
    rw [List.map_map]; rfl
  · simp only
    rw [show (NoditSet.new : NoditSet K').inner = NoditMap.new from rfl, h2, show (NoditSet.new : NoditSet K).inner = NoditMap.new from rfl,
      List.map_map, List.map_map]
    refine List.map_congr_left fun o _ => ?_
    cases o with
    | error p => rfl
    | ok o => exact congrArg Except.ok (ofMap_flip o)

variable [DecidableEq D]

/-- **C105** for `Gqdit`: the mirrored history panics iff the old one does; the identifiers at mirrored points are the same, and
`gaps_no_identifier` and `gaps_with_identifier` list the mirrored gaps in the opposite order. -/
theorem C105_gqdit (h : GqHist I K D) :
    (∀ p, (Gqdit.eval (h.flip f φ) : Res (Gqdit K' D)) = .error p ↔ (Gqdit.eval h : Res (Gqdit K D)) = .error p) ∧
    ∀ g : Gqdit K D, Gqdit.eval h = .ok g → ∃ g' : Gqdit K' D, Gqdit.eval (h.flip f φ) = .ok g' ∧
      (∀ p, g'.identifiersAtPoint (f p) = g.identifiersAtPoint p) ∧
      ∀ q : Interval I, g'.gapsNoIdentifier (q.flip f) = (g.gapsNoIdentifier q).map (fun l => (l.map φ).reverse) ∧
        ∀ d, g'.gapsWithIdentifier d (q.flip f) = (g.gapsWithIdentifier d q).map (fun l => (l.map φ).reverse) := by
  constructor
  · intro p
    rcases eval_rep h with ⟨hb, he⟩ | ⟨hb, g, he, -⟩ <;> rcases eval_rep (h.flip f φ) with ⟨hb', he'⟩ | ⟨hb', g', he', -⟩
    · rw [he, he']; simp
    · exact absurd ((bad_flip hf hφ h).2 hb) hb'
    · exact absurd ((bad_flip hf hφ h).1 hb') hb
    · rw [he, he']; simp
  intro g hg
  have hnb : ¬ h.Bad := fun hb => by
    obtain ⟨p, hp⟩ := (C34_history_panics_iff h).1.2 hb
    rw [hg] at hp; cases hp
  rcases eval_rep (h.flip f φ) with ⟨hb, -⟩ | ⟨-, g', hg', hr'⟩
  · exact absurd ((bad_flip hf hφ h).1 hb) hnb
  have hr := rep_of_eval hg
  refine ⟨g', hg', fun p => ?_, fun q => ?_⟩
  · rw [hr.identifiers, hr'.identifiers, idsAt_flip hf hφ]
  · by_cases hq : Valid q
    · have hq' := ((swapEnds_flip (f := f) q).valid hf).2 hq
      refine ⟨?_, fun d => ?_⟩
      · obtain ⟨l, h1, h2⟩ := hr.gapsNoIdentifier hq
        obtain ⟨l', h1', h2'⟩ := hr'.gapsNoIdentifier hq'
        rw [h1, h1']
        refine congrArg Except.ok (ListsIntervals.unique h2' (listsIntervals_flip hf hφ (fun i => and_congr (maximalRun_flip hf (fun c => ?_) i)
          ((swapEnds_flip i).overlap hf (swapEnds_flip q))) (fun _ hi => hi.1.1) h2))
        rw [idsAt_flip hf hφ]
      · obtain ⟨l, h1, h2⟩ := hr.gapsWithIdentifier d hq
        obtain ⟨l', h1', h2'⟩ := hr'.gapsWithIdentifier d hq'
        rw [h1, h1']
        refine congrArg Except.ok (ListsIntervals.unique h2' (listsIntervals_flip hf hφ (fun i => and_congr (maximalRun_flip hf (fun c => ?_) i)
          ((swapEnds_flip i).overlap hf (swapEnds_flip q))) (fun _ hi => hi.1.1) h2))
        rw [idsAt_flip hf hφ]
    · have hq' := mt ((swapEnds_flip (f := f) q).valid hf).1 hq
      refine ⟨?_, fun d => ?_⟩
      · unfold Gqdit.gapsNoIdentifier
        rw [invalidIntervalPanic_err (mt valid_iff.2 hq), invalidIntervalPanic_err (mt valid_iff.2 hq')]; rfl
      · unfold Gqdit.gapsWithIdentifier
        rw [invalidIntervalPanic_err (mt valid_iff.2 hq), invalidIntervalPanic_err (mt valid_iff.2 hq')]; rfl
end
end

/-! ## Instances -/

/-- the integer `lo + hi - x` -/
def BInt.flip {lo hi : Int} (x : BInt lo hi) : BInt lo hi :=
  ⟨lo + hi - x.val, by have := x.le; omega, by have := x.ge; omega⟩

/-- **C105**: an integer type is mirrored by `x ↦ MIN + MAX - x` (for `u8` this is `255 - x`, for `i8` it is `-1 - x`). -/
theorem C105_integers {lo hi : Int} [Fact (lo ≤ hi)] : Flips (BInt.flip : BInt lo hi → BInt lo hi) where
  le_iff a b := by show lo + hi - a.val ≤ lo + hi - b.val ↔ b.val ≤ a.val; omega
  surj j := ⟨j.flip, by cases j; simp only [BInt.flip, BInt.mk.injEq]; omega⟩

/-- **C105**: `Interval<I>` is mirrored by mirroring and swapping its ends. -/
theorem C105_intervals {I J : Type} [PointType I] [PointType J] (f : I → J) : Mirrors f (Interval.flip f) where
  ends _ := ⟨rfl, rfl⟩
  of_eq _ _ := rfl

/-- the integer `x + d` in an integer type that has room for it -/
def BInt.shift {lo hi lo' hi' : Int} (d : Int) (h1 : lo' ≤ lo + d) (h2 : hi + d ≤ hi') (x : BInt lo hi) : BInt lo' hi' :=
  ⟨x.val + d, by have := x.ge; omega, by have := x.le; omega⟩

/-- **C104**: moving the origin: adding a constant, in a type that has room for it, is an embedding; so a program that counts from another
origin behaves as before. -/
theorem C104_translation {lo hi lo' hi' : Int} [Fact (lo ≤ hi)] [Fact (lo' ≤ hi')] (d : Int) (h1 : lo' ≤ lo + d) (h2 : hi + d ≤ hi') :
    Embeds (BInt.shift d h1 h2 : BInt lo hi → BInt lo' hi') where
  le_iff a b := by show a.val + d ≤ b.val + d ↔ a.val ≤ b.val; omega
  convex a b j ha hb := by
    have h3 : a.val + d ≤ j.val := ha
    have h4 : j.val ≤ b.val + d := hb
    have := a.ge; have := b.le
    exact ⟨⟨j.val - d, by omega, by omega⟩, by cases j; simp [BInt.shift]⟩

namespace Demo
/-- a history -/
def opsFwd : List (Op U8 (Interval U8) Nat) :=
  [.insertStrict (iv 10 20) 8, .insertOverwrite (iv 13 15) 9, .insertMergeTouching (iv 21 200) 1, .cut (iv 2 11),
    .gapsUntrimmed (iv 0 255), .firstKeyValue, .getKeyValueAtPoint (u8 255), .insertStrict (iv 9 5) 3, .iter]
/-- the mirrored history -/
def opsBwd : List (Op U8 (Interval U8) Nat) :=
  [.insertStrict (iv 235 245) 8, .insertOverwrite (iv 240 242) 9, .insertMergeTouching (iv 55 234) 1, .cut (iv 244 253),
    .gapsUntrimmed (iv 0 255), .lastKeyValue, .getKeyValueAtPoint (u8 0), .insertStrict (iv 250 246) 3, .iter]

theorem flippedDemo : List.Forall₂ (Op.Flipped BInt.flip (Interval.flip BInt.flip)) opsFwd opsBwd := by
  unfold opsFwd opsBwd
  repeat' constructor
end Demo

example : ((NoditMap.new : NoditMap (Interval Demo.U8) Nat).run Demo.opsBwd).1.iter =
    (((NoditMap.new : NoditMap (Interval Demo.U8) Nat).run Demo.opsFwd).1.iter.map (Prod.map (Interval.flip BInt.flip) id)).reverse :=
  (C105_nodit_map C105_integers (C105_intervals _) Demo.flippedDemo).1
example : (((NoditMap.new : NoditMap (Interval Demo.U8) Nat).run Demo.opsFwd).2.map Except.toOption).drop 3 =
    [some (.entries [(Demo.iv 10 11, 8)]), some (.keys [Demo.iv 0 11, Demo.iv 201 255]),
      some (.optEntry (some (Demo.iv 12 12, 8))), some (.lookup (.error (Demo.iv 201 255))), none,
      some (.entries [(Demo.iv 12 12, 8), (Demo.iv 13 15, 9), (Demo.iv 16 200, 1)])] := rfl
example : (((NoditMap.new : NoditMap (Interval Demo.U8) Nat).run Demo.opsBwd).2.map Except.toOption).drop 3 =
    [some (.entries [(Demo.iv 244 245, 8)]), some (.keys [Demo.iv 0 54, Demo.iv 244 255]),
      some (.optEntry (some (Demo.iv 243 243, 8))), some (.lookup (.error (Demo.iv 0 54))), none,
      some (.entries [(Demo.iv 55 239, 1), (Demo.iv 240 242, 9), (Demo.iv 243 243, 8)])] := rfl

/-- **C105**: `ZosditMap` is not symmetric, and is not meant to be: values at one point are kept in the order of insertion
(`insert_strict_back`), and mirroring the points does not change that order. -/
theorem C105_zosdit_map_not_symmetric :
    ∃ m : ZosditMap (Interval Demo.U8) Nat, m = (ZosditMap.new.run [.insertStrictBack (Demo.iv 5 5) 1 0, .insertStrictBack (Demo.iv 5 5) 2 0]).1 ∧
    ∃ m' : ZosditMap (Interval Demo.U8) Nat, m' = (ZosditMap.new.run [.insertStrictBack ((Demo.iv 5 5).flip BInt.flip) 1 0,
        .insertStrictBack ((Demo.iv 5 5).flip BInt.flip) 2 0]).1 ∧
      m.iter.map Prod.snd = [1, 2] ∧ m'.iter.map Prod.snd = [1, 2] :=
  ⟨_, rfl, _, rfl, by decide, by decide⟩
end Nodit
