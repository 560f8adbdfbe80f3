import Verif.Props.ZosditLocality
import Verif.Props.Repairs
/-!
# C94, continued: what clients of a `ZosditMap` observe of each other

Clients on disjoint regions observe each other only through calls that depart from their documentation (findings 2-4).
-/
set_option linter.unusedSectionVars false
namespace Nodit
open Spec PointType ZosditMap

variable {I K Q V : Type} [PointType I] [IntervalType I K] [IntervalType I Q]
  [LawfulPoint I] [LawfulInterval I K]

/-- same intervals and values, in order -/
def SameEntries (l l₂ : List (K × V)) : Prop := List.Forall₂ (fun a b => SameInterval a.1 b.1 ∧ a.2 = b.2) l l₂

open Classical in
/-- the entries that meet the region -/
noncomputable def inRegion (r : Interval I) (l : List (K × V)) : List (K × V) := l.filter (fun e => decide (Overlap e.1 r))

namespace ZClients

theorem same_refl (l : List (K × V)) : SameEntries l l := List.forall₂_same.2 fun _ _ => ⟨fun _ => Iff.rfl, rfl⟩

theorem inRegion_append (r : Interval I) (l l₂ : List (K × V)) : inRegion r (l ++ l₂) = inRegion r l ++ inRegion r l₂ := by
  simp [inRegion]

theorem inRegion_pos {r : Interval I} {e : K × V} (h : Overlap e.1 r) (l : List (K × V)) : inRegion r (e :: l) = e :: inRegion r l := by
  simp [inRegion, h]

theorem inRegion_neg {r : Interval I} {e : K × V} (h : ¬ Overlap e.1 r) (l : List (K × V)) : inRegion r (e :: l) = inRegion r l := by
  simp [inRegion, h]

theorem mem_inRegion {r : Interval I} {e : K × V} {l : List (K × V)} : e ∈ inRegion r l ↔ e ∈ l ∧ Overlap e.1 r := by
  simp [inRegion]

theorem inRegion_nil {r : Interval I} {l : List (K × V)} (h : ∀ e ∈ l, ¬ Overlap e.1 r) : inRegion r l = [] :=
  List.eq_nil_iff_forall_not_mem.2 fun e he => h e (mem_inRegion.1 he).1 (mem_inRegion.1 he).2

theorem same_inRegion {r : Interval I} {l l₂ : List (K × V)} (h : SameEntries l l₂) : SameEntries (inRegion r l) (inRegion r l₂) := by
  induction h with
  | nil => exact .nil
  | @cons a b l l₂ hab _ ih =>
    have : Overlap a.1 r ↔ Overlap b.1 r := exists_congr fun p => and_congr_left' (hab.1 p)
    by_cases ho : Overlap a.1 r
    · rw [inRegion_pos ho, inRegion_pos (this.1 ho)]; exact .cons hab ih
    · rw [inRegion_neg ho, inRegion_neg (fun h => ho (this.2 h))]; exact ih

/-! ### cuts -/

theorem part_unique {P P' : I → Prop} {v : V} {l l₂ : List (K × V)} (h : Part P v l) (h₂ : Part P' v l₂) (hP : ∀ p, P p ↔ P' p) : l = l₂ := by
  rcases h with ⟨h1, rfl⟩ | ⟨i, hi, rfl⟩ <;> rcases h₂ with ⟨h2, rfl⟩ | ⟨j, hj, rfl⟩
  · rfl
  · obtain ⟨p, hp⟩ := hj.1; exact absurd ((hP p).2 ((hj.2 p).1 hp)) (h1 p)
  · obtain ⟨p, hp⟩ := hi.1; exact absurd ((hP p).1 ((hi.2 p).1 hp)) (h2 p)
  · rw [interval_eq_of_mem_iff hi.1 fun x => ((hi.2 x).trans (hP x)).trans (hj.2 x).symm]

theorem part_nil {P : I → Prop} {v : V} {l : List (K × V)} (h : Part P v l) (hP : ∀ p, ¬ P p) : l = [] := by
  rcases h with ⟨-, rfl⟩ | ⟨i, hi, rfl⟩
  · rfl
  · obtain ⟨p, hp⟩ := hi.1; exact absurd ((hi.2 p).1 hp) (hP p)

theorem part_mem {P : I → Prop} {v : V} {l : List (K × V)} (h : Part P v l) {e : K × V} (he : e ∈ l) : Valid e.1 ∧ ∀ p, Mem p e.1 → P p := by
  rcases h with ⟨-, rfl⟩ | ⟨i, hi, rfl⟩
  · simp at he
  · rw [List.mem_singleton] at he; subst he
    obtain ⟨p, hp⟩ := hi.1
    exact ⟨⟨p, mem_ofInterval.2 hp⟩, fun p hp => (hi.2 p).1 (mem_ofInterval.1 hp)⟩

theorem cutEntry_mem {q : Q} {e : K × V} {left ret : List (K × V)} (h : CutEntry q e left ret) (hv : Valid e.1) {x : K × V} (hx : x ∈ left) :
    Valid x.1 ∧ ∀ p, Mem p x.1 → Mem p e.1 := by
  by_cases ho : Overlap e.1 q
  · obtain ⟨b, a, rfl, hb, ha⟩ := h.2.2 ho
    rcases List.mem_append.1 hx with hx | hx
    · exact ⟨(part_mem hb hx).1, fun p hp => ((part_mem hb hx).2 p hp).1⟩
    · exact ⟨(part_mem ha hx).1, fun p hp => ((part_mem ha hx).2 p hp).1⟩
  · rw [h.2.1 ho, List.mem_singleton] at hx; subst hx; exact ⟨hv, fun _ h => h⟩

theorem cutAll_mem {q : Q} {l left ret : List (K × V)} (h : CutAll q l left ret) (hv : ∀ e ∈ l, Valid e.1) :
    ∀ x ∈ left, Valid x.1 ∧ ∃ e ∈ l, ∀ p, Mem p x.1 → Mem p e.1 := by
  induction h with
  | nil => simp
  | @cons e l left ret left' ret' he _ ih =>
    intro x hx
    rcases List.mem_append.1 hx with hx | hx
    · obtain ⟨h1, h2⟩ := cutEntry_mem he (hv e (by simp)) hx
      exact ⟨h1, e, by simp, h2⟩
    · obtain ⟨h1, d, hd, h2⟩ := ih (fun e he => hv e (by simp [he])) x hx
      exact ⟨h1, d, by simp [hd], h2⟩

theorem cutAll_inRegion {q : Q} {r : Interval I} (hq : ∀ p, Mem p q → Mem p r) {l left ret : List (K × V)} (h : CutAll q l left ret) :
    ∃ left₂, CutAll q (inRegion r l) left₂ ret ∧ inRegion r left₂ = inRegion r left := by
  induction h with
  | nil => exact ⟨[], .nil, rfl⟩
  | @cons e l left ret left' ret' he _ ih =>
    obtain ⟨left₂, h1, h2⟩ := ih
    by_cases ho : Overlap e.1 r
    · rw [inRegion_pos ho]
      exact ⟨_, .cons he h1, by rw [inRegion_append, inRegion_append, h2]⟩
    · rw [inRegion_neg ho]
      have hno : ¬ Overlap e.1 q := fun ⟨p, hp, hp'⟩ => ho ⟨p, hp, hq p hp'⟩
      have hr : ret = [] := part_nil he.1 fun p hp => hno ⟨p, hp⟩
      refine ⟨left₂, by rw [hr]; exact h1, ?_⟩
      rw [inRegion_append, he.2.1 hno, inRegion_neg ho, h2]; rfl

theorem cutAll_same {q : Q} {l l₂ left left₂ ret ret₂ : List (K × V)} (hs : SameEntries l l₂) (h : CutAll q l left ret)
    (h₂ : CutAll q l₂ left₂ ret₂) : SameEntries left left₂ ∧ ret = ret₂ := by
  induction hs generalizing left left₂ ret ret₂ with
  | nil => cases h; cases h₂; exact ⟨.nil, rfl⟩
  | @cons a b l l₂ hab _ ih =>
    obtain ⟨ha1, ha2⟩ := hab
    cases h with
    | @cons _ _ left ret left' ret' he ht =>
      cases h₂ with
      | @cons _ _ left₂ ret₂ left₂' ret₂' he₂ ht₂ =>
        obtain ⟨i1, rfl⟩ := ih ht ht₂
        have hr : ret = ret₂ := part_unique (ha2 ▸ he.1) he₂.1 fun p => and_congr_left' (ha1 p)
        refine ⟨?_, by rw [hr]⟩
        refine List.rel_append ?_ i1
        have ho : Overlap a.1 q ↔ Overlap b.1 q := exists_congr fun p => and_congr_left' (ha1 p)
        by_cases h : Overlap a.1 q
        · obtain ⟨x, y, rfl, hx, hy⟩ := he.2.2 h
          obtain ⟨x₂, y₂, rfl, hx₂, hy₂⟩ := he₂.2.2 (ho.1 h)
          rw [ha2] at hx hy
          have e1 := part_unique hx hx₂ fun p => and_congr_left' (ha1 p)
          have e2 := part_unique hy hy₂ fun p => and_congr_left' (ha1 p)
          rw [e1, e2]
          exact same_refl _
        · rw [he.2.1 h, he₂.2.1 (fun hc => h (ho.2 hc))]
          exact .cons ⟨ha1, ha2⟩ .nil

/-! ### inserts -/

theorem atOrBefore_congr {a b k : K} (h : SameInterval a b) : (AtOrBefore a k ↔ AtOrBefore b k) ∧ (AtOrBefore k a ↔ AtOrBefore k b) := by
  unfold AtOrBefore
  exact ⟨forall_congr' fun p => forall_congr' fun q => imp_congr_left (h p),
    forall_congr' fun p => forall_congr' fun q => imp_congr_right fun _ => imp_congr_left (h q)⟩

/-- the place of a new entry is determined -/
theorem added_same {k : K} {v : V} (hk : Valid k) {l l₂ l' l₂' : List (K × V)} (hv : ∀ e ∈ l, Valid e.1) (hs : SameEntries l l₂)
    (h : AddedAt l k v True l') (h₂ : AddedAt l₂ k v True l₂') : SameEntries l' l₂' := by
  obtain ⟨l1, k', l2, rfl, rfl, a1, -, -, a2, a3, a4⟩ := h
  obtain ⟨m1, j', m2, rfl, rfl, b1, -, -, b2, b3, b4⟩ := h₂
  have hkk : SameInterval k' j' := fun p => (a1 p).trans (b1 p).symm
  have a4 := a4 trivial
  have b4 := b4 trivial
  have both : ∀ {e : K}, Valid e → AtOrBefore e k → AtOrBefore k e → SameInterval e k := by
    intro e he h1 h2 p
    obtain ⟨x, hx⟩ := he
    obtain ⟨y, hy⟩ := hk
    have key : ∀ a b, Mem a e → Mem b k → a = b := fun a b ha hb => le_antisymm (h1 a b ha hb) (h2 b a hb ha)
    constructor
    · intro hp; rw [key p y hp hy]; exact hy
    · intro hp; rw [← key x p hx hp]; exact hx
  induction l1 generalizing m1 with
  | nil =>
    cases m1 with
    | nil => exact .cons ⟨hkk, rfl⟩ hs
    | cons f m1 =>
      exfalso
      cases l2 with
      | nil => cases hs
      | cons e l2 =>
        have hef : SameInterval e.1 f.1 := (List.forall₂_cons.1 hs).1.1
        exact a4 e (by simp) (both (hv e (by simp)) ((atOrBefore_congr hef).1.2 (b2 f (by simp))) (a3 e (by simp)))
  | cons e l1 ih =>
    cases m1 with
    | nil =>
      exfalso
      cases m2 with
      | nil => cases hs
      | cons f m2 =>
        have hef : SameInterval e.1 f.1 := (List.forall₂_cons.1 hs).1.1
        have := both (hv e (by simp)) (a2 e (by simp)) ((atOrBefore_congr hef).2.2 (b3 f (by simp)))
        exact b4 f (by simp) fun p => (hef p).symm.trans (this p)
    | cons f m1 =>
      obtain ⟨h1, h2⟩ := List.forall₂_cons.1 hs
      exact .cons h1 (ih (fun e he => hv e (by simp [he])) (fun e he => a2 e (by simp [he])) m1 h2 (fun e he => b2 e (by simp [he])))

theorem added_inRegion {k : K} {v : V} (hk : Valid k) {r : Interval I} (hr : ∀ p, Mem p k → Mem p r) {l l' : List (K × V)}
    (h : AddedAt l k v True l') : AddedAt (inRegion r l) k v True (inRegion r l') := by
  obtain ⟨l1, k', l2, rfl, rfl, a1, a5, a6, a2, a3, a4⟩ := h
  obtain ⟨x, hx⟩ := hk
  have ho : ∀ j : K, SameInterval j k → Overlap j r := fun j hj => ⟨x, (hj x).2 hx, hr x hx⟩
  refine ⟨inRegion r l1, k', inRegion r l2, inRegion_append _ _ _, ?_, a1, ?_, ?_, ?_, ?_, ?_⟩
  · rw [inRegion_append, inRegion_pos (e := (k', v)) (ho _ a1)]
  · rcases a5 with h | ⟨e, he, h⟩
    · exact Or.inl h
    · exact Or.inr ⟨e, mem_inRegion.2 ⟨he, ho _ (h ▸ a1)⟩, h⟩
  · intro h
    refine a6 fun e he hs => ?_
    exact h e (mem_inRegion.2 ⟨he, ho _ hs⟩) hs
  · exact fun e he => a2 e (mem_inRegion.1 he).1
  · exact fun e he => a3 e (mem_inRegion.1 he).1
  · exact fun _ e he => a4 trivial e (mem_inRegion.1 he).1

/-! ### removals -/

theorem removed_same {p : I} {l1 l2 m1 m2 : List (K × V)} {e f : K × V} (hs : SameEntries (l1 ++ e :: l2) (m1 ++ f :: m2))
    (he : Mem p e.1) (hl : ∀ x ∈ l2, ¬ Mem p x.1) (hf : Mem p f.1) (hm : ∀ x ∈ m2, ¬ Mem p x.1) :
    SameEntries (l1 ++ l2) (m1 ++ m2) ∧ e.2 = f.2 := by
  have hex : ∀ {l m : List (K × V)}, SameEntries l m → (∃ x ∈ l, Mem p x.1) → ∃ x ∈ m, Mem p x.1 := by
    intro l m h
    induction h with
    | nil => simp
    | @cons a b l m hab _ ih =>
      rintro ⟨x, hx, hp⟩
      rcases List.mem_cons.1 hx with rfl | hx
      · exact ⟨b, by simp, (hab.1 p).1 hp⟩
      · obtain ⟨y, hy, hyp⟩ := ih ⟨x, hx, hp⟩
        exact ⟨y, by simp [hy], hyp⟩
  induction l1 generalizing m1 with
  | nil =>
    cases m1 with
    | nil =>
      obtain ⟨h1, h2⟩ := List.forall₂_cons.1 hs
      exact ⟨h2, h1.2⟩
    | cons g m1 =>
      exfalso
      obtain ⟨h1, h2⟩ := List.forall₂_cons.1 hs
      have h2' : SameEntries (m1 ++ f :: m2) l2 := h2.flip.imp fun a b h => ⟨fun p => (h.1 p).symm, h.2.symm⟩
      obtain ⟨x, hx, hp⟩ := hex h2' ⟨f, by simp, hf⟩
      exact hl x hx hp
  | cons g l1 ih =>
    cases m1 with
    | nil =>
      exfalso
      obtain ⟨h1, h2⟩ := List.forall₂_cons.1 hs
      obtain ⟨x, hx, hp⟩ := hex h2 ⟨e, by simp, he⟩
      exact hm x hx hp
    | cons g' m1 =>
      obtain ⟨h1, h2⟩ := List.forall₂_cons.1 hs
      obtain ⟨h3, h4⟩ := ih h2
      exact ⟨.cons h1 h3, h4⟩

theorem same_exists {P : K → Prop} (hP : ∀ a b : K, Valid a → SameInterval a b → (P a ↔ P b)) {l m : List (K × V)} (hv : ∀ e ∈ l, Valid e.1)
    (h : SameEntries l m) : (∃ x ∈ l, P x.1) ↔ ∃ x ∈ m, P x.1 := by
  induction h with
  | nil => simp
  | @cons a b l m hab _ ih =>
    simp only [List.mem_cons, exists_eq_or_imp, ih (fun e he => hv e (by simp [he])), hP _ _ (hv a (by simp)) hab.1]

/-! ### one call -/

/-- The call did nothing, or something like its job: all that is needed of the calls of other clients. -/
def WeakOp (l : List (K × V)) : ZOp I K V → List (K × V) → Prop
  | .insertStrictBack k v _, l' => l' = l ∨ AddedAt l k v False l'
  | .removeLastValueAtPoint p, l' => l' = l ∨ ∃ l1 e l2, l = l1 ++ e :: l2 ∧ Mem p e.1 ∧ l' = l1 ++ l2
  | .cut q, l' => l' = l ∨ ∃ ret, CutAll q l l' ret

theorem addedAt_weaken {l l' : List (K × V)} {k : K} {v : V} {P : Prop} (h : AddedAt l k v P l') : AddedAt l k v False l' := by
  obtain ⟨l1, k', l2, h1, h2, h3, h4, h5, h6, h7, -⟩ := h
  exact ⟨l1, k', l2, h1, h2, h3, h4, h5, h6, h7, False.elim⟩

theorem weak_of_doc {l l' : List (K × V)} {op : ZOp I K V} {o : ZOut K V} (h : DocOp l op l' o) : WeakOp l op l' := by
  cases op with
  | insertStrictBack k v pick =>
    by_cases hc : ∃ e ∈ l, ¬ ZeroOverlap e.1 k
    · exact Or.inl (h.1 hc).1
    · exact Or.inr (addedAt_weaken (h.2 fun e he => by_contra fun hz => hc ⟨e, he, hz⟩).2)
  | removeLastValueAtPoint p =>
    by_cases hc : ∃ e ∈ l, Mem p e.1
    · obtain ⟨l1, k, v, l2, h1, h2, -, h3, -⟩ := h.2 hc
      exact Or.inr ⟨l1, (k, v), l2, h1, h2, h3⟩
    · exact Or.inl (h.1 fun e he hp => hc ⟨e, he, hp⟩).1
  | cut q => obtain ⟨ret, h1, -⟩ := h; exact Or.inr ⟨ret, h1⟩

theorem weak_of_zspec {s s' : ZState K V} {op : ZOp I K V} {o : ZOut K V} (h : ZSpecOp s op s' o) : WeakOp s.entries op s'.entries := by
  cases op with
  | insertStrictBack k v pick =>
    by_cases hc : ∃ e ∈ s.entries, ¬ ZeroOverlap e.1 k
    · exact Or.inl (by rw [(h.1 hc).1])
    · obtain ⟨-, l', h1, rfl⟩ := h.2 fun e he => by_contra fun hz => hc ⟨e, he, hz⟩
      exact Or.inr (addedAt_weaken h1)
  | removeLastValueAtPoint p =>
    by_cases hc : NotFound s.entries p
    · exact Or.inl (by rw [(h.1 hc).1])
    · obtain ⟨l1, k, v, l2, h1, h2, -, rfl, -⟩ := h.2 hc
      exact Or.inr ⟨l1, (k, v), l2, h1, h2, rfl⟩
  | cut q =>
    by_cases hc : CutMisses s.entries q
    · exact Or.inl (by rw [(h.1 hc).1])
    · obtain ⟨left, ret, h1, rfl, -⟩ := h.2 hc
      exact Or.inr ⟨ret, h1⟩

section
variable {ι : Type} [DecidableEq ι] {region : ι → Interval I}

/-- valid entries, none meeting two regions -/
structure Apart (region : ι → Interval I) (l : List (K × V)) : Prop where
  valid : ∀ e ∈ l, Valid e.1
  one : ∀ e ∈ l, ∀ c d, Overlap e.1 (region c) → Overlap e.1 (region d) → c = d

theorem Apart.weak (hsep : ∀ c d, c ≠ d → ¬ Overlap (region c) (region d)) {l l' : List (K × V)} (h : Apart region l) {op : ZOp I K V} {i : ι}
    (hw : op.Within (region i)) (hb : ¬ op.Bad) (hs : WeakOp l op l') : Apart region l' := by
  have sub : ∀ {x e : K × V}, e ∈ l → (∀ p, Mem p x.1 → Mem p e.1) → ∀ c d, Overlap x.1 (region c) → Overlap x.1 (region d) → c = d := by
    rintro x e he hx c d ⟨p, hp, hpc⟩ ⟨p', hp', hpd⟩
    exact h.one e he c d ⟨p, hx p hp, hpc⟩ ⟨p', hx p' hp', hpd⟩
  cases op with
  | insertStrictBack k v pick =>
    rcases hs with rfl | ⟨l1, k', l2, rfl, rfl, h3, -⟩
    · exact h
    · have hk : Valid k := by_contra hb
      have hall : ∀ x ∈ l1 ++ (k', v) :: l2, x = (k', v) ∨ x ∈ l1 ++ l2 := by
        intro x hx; simp only [List.mem_append, List.mem_cons] at hx ⊢; tauto
      refine ⟨fun x hx => ?_, fun x hx c d hc hd => ?_⟩
      · rcases hall x hx with rfl | hx
        · obtain ⟨p, hp⟩ := hk; exact ⟨p, (h3 p).2 hp⟩
        · exact h.valid x hx
      · rcases hall x hx with rfl | hx
        · have key : ∀ c, Overlap k' (region c) → c = i := by
            rintro c ⟨p, hp, hpc⟩
            by_contra hne
            exact hsep c i hne ⟨p, hpc, hw p ((h3 p).1 hp)⟩
          rw [key c hc, key d hd]
        · exact h.one x hx c d hc hd
  | removeLastValueAtPoint p =>
    rcases hs with rfl | ⟨l1, e, l2, rfl, -, rfl⟩
    · exact h
    · have hall : ∀ x ∈ l1 ++ l2, x ∈ l1 ++ e :: l2 := by
        intro x hx; simp only [List.mem_append, List.mem_cons] at hx ⊢; tauto
      exact ⟨fun x hx => h.valid x (hall x hx), fun x hx => h.one x (hall x hx)⟩
  | cut q =>
    rcases hs with rfl | ⟨ret, hs⟩
    · exact h
    · refine ⟨fun x hx => (cutAll_mem hs h.valid x hx).1, fun x hx => ?_⟩
      obtain ⟨-, e, he, hxe⟩ := cutAll_mem hs h.valid x hx
      exact sub he hxe

/-- a call of another client leaves the entries in the region of `c` -/
theorem other_call (hsep : ∀ c d, c ≠ d → ¬ Overlap (region c) (region d)) {l l' : List (K × V)} (h : Apart region l) {op : ZOp I K V} {c i : ι}
    (hi : i ≠ c) (hw : op.Within (region i)) (hs : WeakOp l op l') : inRegion (region c) l' = inRegion (region c) l := by
  cases op with
  | insertStrictBack k v pick =>
    rcases hs with rfl | ⟨l1, k', l2, rfl, rfl, h3, -⟩
    · rfl
    · have : ¬ Overlap (k', v).1 (region c) := by
        rintro ⟨p, hp, hpc⟩
        exact hsep c i hi.symm ⟨p, hpc, hw p ((h3 p).1 hp)⟩
      rw [inRegion_append, inRegion_neg this, inRegion_append]
  | removeLastValueAtPoint p =>
    rcases hs with rfl | ⟨l1, e, l2, rfl, hp, rfl⟩
    · rfl
    · have : ¬ Overlap e.1 (region c) := fun hc =>
        hi (h.one e (by simp) i c ⟨p, hp, hw p ⟨le_refl _, le_refl _⟩⟩ hc)
      rw [inRegion_append, inRegion_append, inRegion_neg this]
  | cut q =>
    rcases hs with rfl | ⟨ret, hs⟩
    · rfl
    · obtain ⟨hv, ho⟩ := h
      induction hs with
      | nil => rfl
      | @cons e l left ret left' ret' he _ ih =>
        rw [inRegion_append, ih (fun e he => hv e (by simp [he])) (fun e he => ho e (by simp [he]))]
        by_cases hc : Overlap e.1 (region c)
        · have hno : ¬ Overlap e.1 q := fun ⟨p, hp, hpq⟩ => hi (ho e (by simp) i c ⟨p, hp, hw p hpq⟩ hc)
          rw [he.2.1 hno, inRegion_pos hc, inRegion_pos hc]; rfl
        · have hnil : inRegion (region c) left = [] := inRegion_nil fun x hx ⟨p, hp, hpc⟩ =>
            hc ⟨p, (cutEntry_mem he (hv e (by simp)) hx).2 p hp, hpc⟩
          rw [inRegion_neg hc, hnil]; rfl

/-- documented calls on maps with the same entries in the region give the same results and the same entries there -/
theorem own_call {r : Interval I} {l l₂ l' l₂' : List (K × V)} {op : ZOp I K V} {o o₂ : ZOut K V} (hv : ∀ e ∈ l, Valid e.1)
    (hs : SameEntries (inRegion r l) (inRegion r l₂)) (hw : op.Within r) (hb : ¬ op.Bad) (h : DocOp l op l' o) (h₂ : DocOp l₂ op l₂' o₂) :
    o = o₂ ∧ SameEntries (inRegion r l') (inRegion r l₂') := by
  cases op with
  | insertStrictBack k v pick =>
    have hk : Valid k := by_contra hb
    have hcut : ∀ l : List (K × V), (∃ e ∈ l, ¬ ZeroOverlap e.1 k) ↔ ∃ e ∈ inRegion r l, ¬ ZeroOverlap e.1 k := by
      intro l
      refine exists_congr fun e => ?_
      rw [mem_inRegion, and_assoc]
      refine and_congr_right fun he => ⟨fun hz => ⟨?_, hz⟩, fun h => h.2⟩
      by_contra hc
      refine hz ⟨fun p p' h1 h2 => absurd ⟨p, h1, hw p h2⟩ hc, fun p h1 h2 => absurd ⟨p, h1, hw p h2⟩ hc⟩
    have hsame : (∃ e ∈ inRegion r l, ¬ ZeroOverlap e.1 k) ↔ ∃ e ∈ inRegion r l₂, ¬ ZeroOverlap e.1 k := by
      exact same_exists (P := fun x => ¬ ZeroOverlap x k) (fun a b ha h => not_congr (zeroOverlap_congr ha h))
        (fun e he => hv e (mem_inRegion.1 he).1) hs
    by_cases hc : ∃ e ∈ l, ¬ ZeroOverlap e.1 k
    · have hc₂ := (hcut l₂).2 (hsame.1 ((hcut l).1 hc))
      obtain ⟨rfl, rfl⟩ := h.1 hc
      obtain ⟨rfl, rfl⟩ := h₂.1 hc₂
      exact ⟨rfl, hs⟩
    · have hc₂ : ¬ ∃ e ∈ l₂, ¬ ZeroOverlap e.1 k := fun h => hc ((hcut l).2 (hsame.2 ((hcut l₂).1 h)))
      obtain ⟨rfl, ha⟩ := h.2 fun e he => by_contra fun hz => hc ⟨e, he, hz⟩
      obtain ⟨rfl, ha₂⟩ := h₂.2 fun e he => by_contra fun hz => hc₂ ⟨e, he, hz⟩
      exact ⟨rfl, added_same hk (fun e he => hv e (mem_inRegion.1 he).1) hs (added_inRegion hk hw ha) (added_inRegion hk hw ha₂)⟩
  | removeLastValueAtPoint p =>
    have hp : Mem p r := hw p ⟨le_refl _, le_refl _⟩
    have hcut : ∀ l : List (K × V), (∃ e ∈ l, Mem p e.1) ↔ ∃ e ∈ inRegion r l, Mem p e.1 := by
      intro l
      refine exists_congr fun e => ?_
      rw [mem_inRegion, and_assoc]
      exact and_congr_right fun he => ⟨fun hz => ⟨⟨p, hz, hp⟩, hz⟩, fun h => h.2⟩
    have hsame : (∃ e ∈ l, Mem p e.1) ↔ ∃ e ∈ l₂, Mem p e.1 := by
      rw [hcut l, hcut l₂]; exact same_exists (P := fun k => Mem p k) (fun a b _ h => h p) (fun e he => hv e (mem_inRegion.1 he).1) hs
    by_cases hc : ∃ e ∈ l, Mem p e.1
    · obtain ⟨l1, k, v, l2, rfl, a1, a2, rfl, rfl⟩ := h.2 hc
      obtain ⟨m1, j, w, m2, rfl, b1, b2, rfl, rfl⟩ := h₂.2 (hsame.1 hc)
      rw [inRegion_append, inRegion_append, inRegion_pos (e := (k, v)) ⟨p, a1, hp⟩, inRegion_pos (e := (j, w)) ⟨p, b1, hp⟩] at hs
      obtain ⟨h3, h4⟩ := removed_same hs a1 (fun x hx => a2 x (mem_inRegion.1 hx).1) b1 (fun x hx => b2 x (mem_inRegion.1 hx).1)
      rw [inRegion_append, inRegion_append]
      exact ⟨by rw [show v = w from h4], h3⟩
    · obtain ⟨rfl, rfl⟩ := h.1 fun e he hp => hc ⟨e, he, hp⟩
      obtain ⟨rfl, rfl⟩ := h₂.1 fun e he hp => hc (hsame.2 ⟨e, he, hp⟩)
      exact ⟨rfl, hs⟩
  | cut q =>
    obtain ⟨ret, h1, rfl⟩ := h
    obtain ⟨ret₂, h2, rfl⟩ := h₂
    obtain ⟨left, e1, e2⟩ := cutAll_inRegion hw h1
    obtain ⟨left₂, f1, f2⟩ := cutAll_inRegion hw h2
    obtain ⟨g1, rfl⟩ := cutAll_same hs e1 f1
    exact ⟨rfl, by rw [← e2, ← f2]; exact same_inRegion g1⟩

/-! ### schedules -/

/-- A schedule, seen by client `c`: its own calls do as documented, those of the others at least something like it. -/
inductive Trace (c : ι) : List (K × V) → List (ι × ZOp I K V) → List (K × V) → List (Res (ZOut K V)) → Prop
  | nil (l) : Trace c l [] l []
  | panic {l l' i op sched os} : op.Bad → Trace c l sched l' os → Trace c l ((i, op) :: sched) l' (.error .invalidInterval :: os)
  | other {l l1 l' i op sched o os} : i ≠ c → ¬ op.Bad → WeakOp l op l1 → Trace c l1 sched l' os → Trace c l ((i, op) :: sched) l' (.ok o :: os)
  | mine {l l1 l' op sched o os} : ¬ op.Bad → DocOp l op l1 o → Trace c l1 sched l' os → Trace c l ((c, op) :: sched) l' (.ok o :: os)

theorem own_cons_ne {α : Type} {c i : ι} (y : α) (l : List (ι × α)) (h : i ≠ c) : own c ((i, y) :: l) = own c l := by simp [own, h]

theorem own_cons_eq {α : Type} {c : ι} (y : α) (l : List (ι × α)) : own c ((c, y) :: l) = y :: own c l := by simp [own]

theorem trace_same (hsep : ∀ c d, c ≠ d → ¬ Overlap (region c) (region d)) {c : ι} {l l' : List (K × V)} {sched : List (ι × ZOp I K V)}
    {os : List (Res (ZOut K V))} (h : Trace c l sched l' os) (hl : Apart region l) (hw : ∀ x ∈ sched, x.2.Within (region x.1))
    {l₂ l₂' : List (K × V)} {os₂ : List (Res (ZOut K V))} (h₂ : Trace c l₂ ((own c sched).map fun op => (c, op)) l₂' os₂)
    (hs : SameEntries (inRegion (region c) l) (inRegion (region c) l₂)) :
    own c ((sched.map Prod.fst).zip os) = os₂ ∧ SameEntries (inRegion (region c) l') (inRegion (region c) l₂') := by
  induction h generalizing l₂ os₂ with
  | nil l => cases h₂; exact ⟨rfl, hs⟩
  | @panic l l' i op sched os hb _ ih =>
    have hw' := fun x hx => hw x (List.mem_cons_of_mem _ hx)
    by_cases hi : i = c
    · subst hi
      rw [own_cons_eq, List.map_cons] at h₂
      cases h₂ with
      | panic _ ht =>
        obtain ⟨h1, h2⟩ := ih hl hw' ht hs
        exact ⟨by rw [List.map_cons, List.zip_cons_cons, own_cons_eq, h1], h2⟩
      | other hne => exact absurd rfl hne
      | mine hn => exact absurd hb hn
    · rw [own_cons_ne _ _ hi] at h₂
      obtain ⟨h1, h2⟩ := ih hl hw' h₂ hs
      exact ⟨by rw [List.map_cons, List.zip_cons_cons, own_cons_ne _ _ hi, h1], h2⟩
  | @other l l1 l' i op sched o os hi hb hweak _ ih =>
    have hw' := fun x hx => hw x (List.mem_cons_of_mem _ hx)
    have hwi := hw _ List.mem_cons_self
    rw [own_cons_ne _ _ hi] at h₂
    obtain ⟨h1, h2⟩ := ih (hl.weak hsep hwi hb hweak) hw' h₂ (by rw [other_call hsep hl hi hwi hweak]; exact hs)
    exact ⟨by rw [List.map_cons, List.zip_cons_cons, own_cons_ne _ _ hi, h1], h2⟩
  | @mine l l1 l' op sched o os hb hdoc _ ih =>
    have hw' := fun x hx => hw x (List.mem_cons_of_mem _ hx)
    have hwi := hw _ List.mem_cons_self
    rw [own_cons_eq, List.map_cons] at h₂
    cases h₂ with
    | panic hb' => exact absurd hb' hb
    | other hne => exact absurd rfl hne
    | mine _ hdoc₂ ht =>
      obtain ⟨rfl, e2⟩ := own_call hl.valid hs hwi hb hdoc hdoc₂
      obtain ⟨h1, h2⟩ := ih (hl.weak hsep hwi hb (weak_of_doc hdoc)) hw' ht e2
      exact ⟨by rw [List.map_cons, List.zip_cons_cons, own_cons_eq, h1], h2⟩

theorem trace_of_docRun (c : ι) {l l' : List (K × V)} {sched : List (ι × ZOp I K V)} {os : List (Res (ZOut K V))}
    (h : DocRun l (sched.map Prod.snd) l' os) : Trace c l sched l' os := by
  induction sched generalizing l os with
  | nil => cases h; exact .nil _
  | cons x sched ih =>
    obtain ⟨i, op⟩ := x
    cases h with
    | panic hb ht => exact .panic hb (ih ht)
    | call hb hd ht =>
      by_cases hi : i = c
      · subst hi; exact .mine hb hd (ih ht)
      · exact .other hi hb (weak_of_doc hd) (ih ht)

/-- every call of client `c` in the schedule, run from `m`, has its documented effect and result -/
def AllDocumented (c : ι) (m : ZosditMap K V) (sched : List (ι × ZOp I K V)) : Prop :=
  ∀ pre op post, sched = pre ++ (c, op) :: post → ∀ m' o, (m.run (pre.map Prod.snd)).1.step op = .ok (m', o) →
    DocOp (m.run (pre.map Prod.snd)).1.iter op m'.iter o

theorem trace_of_run (c : ι) {m : ZosditMap K V} {s : ZState K V} (hm : Represents m s) (sched : List (ι × ZOp I K V))
    (hd : AllDocumented c m sched) : Trace c m.iter sched (m.run (sched.map Prod.snd)).1.iter (m.run (sched.map Prod.snd)).2 := by
  induction sched generalizing m s with
  | nil => exact .nil _
  | cons x sched ih =>
    obtain ⟨i, op⟩ := x
    rcases ZosditMap.step_refines hm op with ⟨hb, h1⟩ | ⟨hb, m', o, s', h1, h2, h3⟩
    · have hd' : AllDocumented c m sched := by
        intro pre op' post he m' o hst
        have := hd ((i, op) :: pre) op' post (by rw [he]; rfl) m' o
        simp only [List.map_cons, ZosditMap.run, h1] at this
        exact this hst
      simp only [List.map_cons, ZosditMap.run, h1]
      exact .panic hb (ih hm hd')
    · have hd' : AllDocumented c m' sched := by
        intro pre op' post he m'' o' hst
        have := hd ((i, op) :: pre) op' post (by rw [he]; rfl) m'' o'
        simp only [List.map_cons, ZosditMap.run, h1] at this
        exact this hst
      simp only [List.map_cons, ZosditMap.run, h1]
      by_cases hi : i = c
      · subst hi
        exact .mine hb (hd [] op sched rfl m' o h1) (ih h2 hd')
      · refine .other hi hb ?_ (ih h2 hd')
        rw [hm.entries, h2.entries]; exact weak_of_zspec h3
end
end ZClients
open ZClients

section
variable {ι : Type} [DecidableEq ι]

/-- **C94** (partial): clients of one `ZosditMap`, each working within its region, the regions disjoint, no entry meeting two of them.
If every call of client `c` does what its documentation says, in the schedule and when `c` is alone, then `c` gets the same results, and the
entries in its region are the same at the end (same intervals and values, in order), whatever the others do, and whether their
calls go as documented or not. So clients observe each other only through the departures from the documentation (findings 2-4). Missing:
that all calls do what their documentation says, which is false. -/
theorem C94_documented_calls_partial (ops : List (ZOp I K V)) (region : ι → Interval I)
    (hsep : ∀ c d, c ≠ d → ¬ Overlap (region c) (region d))
    (hone : ∀ e ∈ (after ops).iter, ∀ c d, Overlap e.1 (region c) → Overlap e.1 (region d) → c = d)
    (sched : List (ι × ZOp I K V)) (hw : ∀ x ∈ sched, x.2.Within (region x.1)) (c : ι)
    (hd : AllDocumented c (after ops) sched) (hd' : AllDocumented c (after ops) ((own c sched).map fun op => (c, op))) :
    own c ((sched.map Prod.fst).zip ((after ops).run (sched.map Prod.snd)).2) = ((after ops).run (own c sched)).2 ∧
    SameEntries (inRegion (region c) ((after ops).run (sched.map Prod.snd)).1.iter)
      (inRegion (region c) ((after ops).run (own c sched)).1.iter) := by
  obtain ⟨s, -, hr⟩ := ZosditMap.run_refines (represents_new (I := I) (K := K) (V := V)) ops
  have hv : ∀ e ∈ (after ops).iter, Valid e.1 := fun e he => valid_iff.2 (hr.good.inv.flat.1 e he)
  have t1 := trace_of_run c hr sched hd
  have t2 := trace_of_run c hr _ hd'
  rw [List.map_map] at t2
  have : (Prod.snd ∘ fun op : ZOp I K V => (c, op)) = id := rfl
  rw [this, List.map_id] at t2
  exact trace_same hsep t1 ⟨hv, hone⟩ hw t2 (same_refl _)

/-- With the repairs of `Props/Repairs.lean` clients on disjoint regions do not observe each other: for every schedule of their calls
every client gets the results it would get alone, and finds the same entries in its region. -/
theorem Repair_zosdit_clients (ops : List (ZOp I K V)) (region : ι → Interval I)
    (hsep : ∀ c d, c ≠ d → ¬ Overlap (region c) (region d))
    (hone : ∀ e ∈ (Repair.run (new : ZosditMap K V) ops).1.iter, ∀ c d, Overlap e.1 (region c) → Overlap e.1 (region d) → c = d)
    (sched : List (ι × ZOp I K V)) (hw : ∀ x ∈ sched, x.2.Within (region x.1)) (c : ι) :
    let m := (Repair.run (new : ZosditMap K V) ops).1
    own c ((sched.map Prod.fst).zip (Repair.run m (sched.map Prod.snd)).2) = (Repair.run m (own c sched)).2 ∧
    SameEntries (inRegion (region c) (Repair.run m (sched.map Prod.snd)).1.iter)
      (inRegion (region c) (Repair.run m (own c sched)).1.iter) := by
  intro m
  have hg : Repair.Good m := Repair.good_after ops
  have hv : ∀ e ∈ m.iter, Valid e.1 := fun e he => valid_iff.2 (hg.inv.flat.1 e he)
  have t1 := trace_of_docRun c (Repair.run_ok hg (sched.map Prod.snd)).2
  have t2 := trace_of_docRun c (sched := (own c sched).map fun op => (c, op)) (l := m.iter)
    (l' := (Repair.run m (own c sched)).1.iter) (os := (Repair.run m (own c sched)).2) (by
      rw [List.map_map]
      have : (Prod.snd ∘ fun op : ZOp I K V => (c, op)) = id := rfl
      rw [this, List.map_id]
      exact (Repair.run_ok hg (own c sched)).2)
  exact trace_same hsep t1 ⟨hv, hone⟩ hw t2 (same_refl _)
end

/-! ## Instances -/

/-- a call that agrees with the repaired call does what is documented -/
theorem ZClients.documented_of_repair {m m' m'' : ZosditMap K V} (hm : ZInv m.inner) {op : ZOp I K V} {o : ZOut K V}
    (h : Repair.step ⟨m.iter.length, m.inner⟩ op = .ok (m'', o)) (he : m''.iter = m'.iter) : DocOp m.iter op m'.iter o := by
  have hg : Repair.Good (⟨m.iter.length, m.inner⟩ : ZosditMap K V) := ⟨hm, rfl⟩
  rcases Repair.step_ok hg op with ⟨-, h1⟩ | ⟨-, m₂, o₂, h1, -, h2⟩
  · rw [h] at h1; cases h1
  · rw [h] at h1; cases h1
    rw [he] at h2; exact h2

theorem ZClients.allDocumented_nil {ι : Type} [DecidableEq ι] (c : ι) (m : ZosditMap K V) : AllDocumented c m [] := by
  intro pre op post h; simp at h

theorem ZClients.allDocumented_cons {ι : Type} [DecidableEq ι] (c i : ι) {m m' m'' : ZosditMap K V} (hm : ZInv m.inner) {op : ZOp I K V} {o : ZOut K V}
    {sched : List (ι × ZOp I K V)} (h : m.step op = .ok (m', o)) (hc : i ≠ c ∨ (Repair.step ⟨m.iter.length, m.inner⟩ op = .ok (m'', o) ∧ m''.iter = m'.iter))
    (hr : AllDocumented c m' sched) : AllDocumented c m ((i, op) :: sched) := by
  intro pre op' post he m₂ o₂ hst
  cases pre with
  | nil =>
    simp only [List.nil_append, List.cons.injEq, Prod.mk.injEq] at he
    obtain ⟨⟨rfl, rfl⟩, rfl⟩ := he
    simp only [List.map_nil, ZosditMap.run] at hst ⊢
    rw [h] at hst; cases hst
    rcases hc with hc | ⟨h1, h2⟩
    · exact absurd rfl hc
    · exact documented_of_repair hm h1 h2
  | cons x pre =>
    simp only [List.cons_append, List.cons.injEq] at he
    obtain ⟨rfl, he⟩ := he
    simp only [List.map_cons, ZosditMap.run, h] at hst ⊢
    exact hr pre op' post he m₂ o₂ hst


/-- disjoint regions -/
def Demo.zregion2 (c : Bool) : Interval Demo.U8 := if c then Demo.iv 60 90 else Demo.iv 0 50

/-- inserts, removals and cuts of both clients; the lookup of client `true` at 60 misses (finding 2) and so does its cut of `61..=70` (finding 3), but
all calls of client `false` go as documented -/
def Demo.zsched2 : List (Bool × ZOp Demo.U8 (Interval Demo.U8) Nat) :=
  [(false, .insertStrictBack (Demo.iv 10 20) 1 0), (true, .insertStrictBack (Demo.iv 60 60) 2 0), (true, .insertStrictBack (Demo.iv 63 64) 3 0),
   (true, .removeLastValueAtPoint (Demo.u8 60)), (false, .removeLastValueAtPoint (Demo.u8 15)), (true, .cut (Demo.iv 61 70)),
   (false, .insertStrictBack (Demo.iv 30 40) 4 0), (false, .cut (Demo.iv 35 50))]

example : own false ((Demo.zsched2.map Prod.fst).zip (new.run (Demo.zsched2.map Prod.snd)).2) =
      ((new : ZosditMap (Interval Demo.U8) Nat).run (own false Demo.zsched2)).2 ∧
    SameEntries (inRegion (Demo.zregion2 false) (new.run (Demo.zsched2.map Prod.snd)).1.iter)
      (inRegion (Demo.zregion2 false) ((new : ZosditMap (Interval Demo.U8) Nat).run (own false Demo.zsched2)).1.iter) := by
  have zinv : ∀ n, ZInv (after ((Demo.zsched2.take n).map Prod.snd)).inner := fun n => (good_after _).inv
  have zinv' : ∀ n, ZInv (after ((own false Demo.zsched2).take n)).inner := fun n => (good_after _).inv
  refine C94_documented_calls_partial [] Demo.zregion2 ?_ (by simp [after, ZosditMap.run, new, ZosditMap.iter, flatten]) Demo.zsched2 ?_ false ?_ ?_
  · rintro c d hcd ⟨p, h1, h2⟩
    cases c <;> cases d
    · exact hcd rfl
    · exact absurd (le_trans h2.1 h1.2) (by decide)
    · exact absurd (le_trans h1.1 h2.2) (by decide)
    · exact hcd rfl
  · have hsub : ∀ (i r : Interval Demo.U8), start r ≤ start i ∧ stop i ≤ stop r → ∀ p, Mem p i → Mem p r :=
      fun i r h p hp => ⟨le_trans h.1 hp.1, le_trans hp.2 h.2⟩
    intro x hx
    simp only [Demo.zsched2, List.mem_cons, List.not_mem_nil, or_false] at hx
    rcases hx with rfl | rfl | rfl | rfl | rfl | rfl | rfl | rfl <;> exact hsub _ _ (by decide)
  · exact allDocumented_cons _ _ (zinv 0) rfl (Or.inr ⟨rfl, rfl⟩) <|
      allDocumented_cons (m'' := new) _ _ (zinv 1) rfl (Or.inl (by decide)) <|
      allDocumented_cons (m'' := new) _ _ (zinv 2) rfl (Or.inl (by decide)) <|
      allDocumented_cons (m'' := new) _ _ (zinv 3) rfl (Or.inl (by decide)) <|
      allDocumented_cons _ _ (zinv 4) rfl (Or.inr ⟨rfl, rfl⟩) <|
      allDocumented_cons (m'' := new) _ _ (zinv 5) rfl (Or.inl (by decide)) <|
      allDocumented_cons _ _ (zinv 6) rfl (Or.inr ⟨rfl, rfl⟩) <|
      allDocumented_cons _ _ (zinv 7) rfl (Or.inr ⟨rfl, rfl⟩) <| allDocumented_nil _ _
  · exact allDocumented_cons _ _ (zinv' 0) rfl (Or.inr ⟨rfl, rfl⟩) <|
      allDocumented_cons _ _ (zinv' 1) rfl (Or.inr ⟨rfl, rfl⟩) <|
      allDocumented_cons _ _ (zinv' 2) rfl (Or.inr ⟨rfl, rfl⟩) <|
      allDocumented_cons _ _ (zinv' 3) rfl (Or.inr ⟨rfl, rfl⟩) <| allDocumented_nil _ _

/-- the results of the two clients -/
example : own false ((Demo.zsched2.map Prod.fst).zip (new.run (Demo.zsched2.map Prod.snd)).2) =
      [.ok (.strict (.ok ())), .ok (.optValue (some 1)), .ok (.strict (.ok ())), .ok (.entries [(Demo.iv 35 40, 4)])] ∧
    own true ((Demo.zsched2.map Prod.fst).zip (new.run (Demo.zsched2.map Prod.snd)).2) =
      [.ok (.strict (.ok ())), .ok (.strict (.ok ())), .ok (.optValue none), .ok (.entries [])] := ⟨rfl, rfl⟩

end Nodit
