import Verif.Lemmas.Zosdit
import Verif.History
/-!
# `ZosditMap`: translating to the specification, and histories
-/
set_option linter.unusedSectionVars false
set_option linter.unusedSimpArgs false
namespace Nodit
open Spec PointType

section
variable {I K A B Q V : Type} [PointType I] [IntervalType I K] [IntervalType I A] [IntervalType I B] [IntervalType I Q]

theorem zeroOverlap_iff {a : A} {b : B} (ha : start a ≤ stop a) (hb : start b ≤ stop b) :
    ZeroOverlap a b ↔ stop a ≤ start b ∨ stop b ≤ start a := by
  constructor
  · rintro ⟨h1, h2⟩
    by_contra hc
    rw [not_or, not_le, not_le] at hc
    obtain ⟨c1, c2⟩ := hc
    have m1 : Mem (max (start a) (start b)) a := ⟨le_max_left _ _, max_le ha c1.le⟩
    have m2 : Mem (max (start a) (start b)) b := ⟨le_max_right _ _, max_le c2.le hb⟩
    have n1 : Mem (min (stop a) (stop b)) a := ⟨le_min ha c2.le, min_le_left _ _⟩
    have n2 : Mem (min (stop a) (stop b)) b := ⟨le_min c1.le hb, min_le_right _ _⟩
    have he := h1 _ _ m1 m2 n1 n2
    have h3 := h2 _ m1 m2
    rcases le_total (start a) (start b) with hs | hs
    · rw [max_eq_right hs] at he h3
      rcases le_total (stop a) (stop b) with ht | ht
      · rw [min_eq_left ht] at he; order
      · rw [min_eq_right ht] at he
        obtain ⟨h4 | h4, -⟩ := h3 <;> order
    · rw [max_eq_left hs] at he h3
      rcases le_total (stop a) (stop b) with ht | ht
      · rw [min_eq_left ht] at he
        obtain ⟨-, h4 | h4⟩ := h3 <;> order
      · rw [min_eq_right ht] at he; order
  · intro h
    constructor
    · rintro p p' ⟨a1, a2⟩ ⟨a3, a4⟩ ⟨a5, a6⟩ ⟨a7, a8⟩
      rcases h with h | h <;> order
    · rintro p ⟨a1, a2⟩ ⟨a3, a4⟩
      rcases h with h | h
      · exact ⟨Or.inr (by order), Or.inl (by order)⟩
      · exact ⟨Or.inl (by order), Or.inr (by order)⟩

theorem atOrBefore_iff {a : A} {b : B} (ha : start a ≤ stop a) (hb : start b ≤ stop b) :
    AtOrBefore a b ↔ stop a ≤ start b := by
  constructor
  · intro h; exact h _ _ ⟨ha, le_refl _⟩ ⟨le_refl _, hb⟩
  · rintro h p q ⟨-, h1⟩ ⟨h2, -⟩; order

theorem sameInterval_iff {a : A} {b : B} (ha : start a ≤ stop a) (hb : start b ≤ stop b) :
    SameInterval a b ↔ start a = start b ∧ stop a = stop b := by
  constructor
  · intro h
    have h1 := (h (start a)).1 ⟨le_refl _, ha⟩
    have h2 := (h (stop a)).1 ⟨ha, le_refl _⟩
    have h3 := (h (start b)).2 ⟨le_refl _, hb⟩
    have h4 := (h (stop b)).2 ⟨hb, le_refl _⟩
    exact ⟨le_antisymm h3.1 h1.1, le_antisymm h2.2 h4.2⟩
  · rintro ⟨h1, h2⟩ p
    simp [Mem, h1, h2]

theorem zwf_iff {l : List (K × V)} : ZWF l ↔
    (∀ e ∈ l, start e.1 ≤ stop e.1) ∧ l.Pairwise (fun a b => stop a.1 ≤ start b.1) := by
  unfold ZWF
  simp only [valid_iff]
  refine and_congr_right fun h => ?_
  constructor
  · intro hp
    exact List.Pairwise.imp_of_mem (fun {a b} ha hb hab => (atOrBefore_iff (h a ha) (h b hb)).1 hab) hp
  · intro hp
    exact List.Pairwise.imp_of_mem (fun {a b} ha hb hab => (atOrBefore_iff (h a ha) (h b hb)).2 hab) hp

variable [LawfulPoint I]

theorem cutEntry_ok {q : Q} (hq : start q ≤ stop q) {e : K × V} (he : start e.1 ≤ stop e.1) :
    CutEntry q e (cutOut q e) (cutIn q e) := by
  have hov := overlap_iff he hq
  by_cases ho : ovl q e = true
  · have h6 := ho
    simp only [ovl, decide_eq_true_eq] at h6
    obtain ⟨h61, h62⟩ := h6
    refine ⟨Or.inr ⟨⟨max (start e.1) (start q), min (stop e.1) (stop q)⟩, (describes_of ?_ ?_).2 rfl, by simp [cutIn, ho]⟩, ?_, ?_⟩
    · exact max_le (le_min he h61) (le_min h62 hq)
    · intro p; simp only [Mem, max_le_iff, le_min_iff]; tauto
    · intro hn; exact absurd (hov.2 ⟨h61, h62⟩) hn
    · intro _
      rw [cutOut, if_pos ho]
      refine ⟨_, _, rfl, ?_, ?_⟩
      · simp only [forall_mem_lt hq]
        split_ifs with h1
        · obtain ⟨d, hd, hd1, hd2, hd3⟩ := down_exists h1
          refine Or.inr ⟨⟨start e.1, d⟩, (describes_of hd2 ?_).2 rfl, by rw [hd]⟩
          intro p
          constructor
          · rintro ⟨⟨p1, p2⟩, p3⟩; exact ⟨p1, (hd3 p).1 p3⟩
          · rintro ⟨p1, p2⟩; exact ⟨⟨p1, by order⟩, by order⟩
        · left
          refine ⟨?_, rfl⟩
          rintro p ⟨⟨p1, p2⟩, p3⟩; order
      · simp only [forall_mem_gt hq]
        split_ifs with h1
        · obtain ⟨d, hd, hd1, hd2, hd3⟩ := up_exists h1
          refine Or.inr ⟨⟨d, stop e.1⟩, (describes_of hd2 ?_).2 rfl, by rw [hd]⟩
          intro p
          constructor
          · rintro ⟨⟨p1, p2⟩, p3⟩; exact ⟨(hd3 p).1 p3, p2⟩
          · rintro ⟨p1, p2⟩; exact ⟨⟨by order, p2⟩, by order⟩
        · left
          refine ⟨?_, rfl⟩
          rintro p ⟨⟨p1, p2⟩, p3⟩; order
  · have h6 := ho
    simp only [ovl, decide_eq_true_eq] at h6
    refine ⟨Or.inl ⟨?_, by simp [cutIn, ho]⟩, fun _ => by simp [cutOut, ho], fun hc => absurd (hov.1 hc) h6⟩
    rintro p ⟨p1, p2⟩
    exact h6 (hov.1 ⟨p, p1, p2⟩)

theorem cutAll_ok {q : Q} (hq : start q ≤ stop q) {l : List (K × V)} (hl : ∀ e ∈ l, start e.1 ≤ stop e.1) :
    CutAll q l (l.flatMap (cutOut q)) (l.flatMap (cutIn q)) := by
  induction l with
  | nil => exact CutAll.nil
  | cons e l ih =>
    rw [List.flatMap_cons, List.flatMap_cons]
    exact CutAll.cons (cutEntry_ok hq (hl e (by simp))) (ih fun x hx => hl x (by simp [hx]))
end

namespace ZosditMap
section
variable {I K Q V : Type} [PointType I] [IntervalType I K] [IntervalType I Q] [LawfulPoint I] [LawfulInterval I K]

/-- the output is that of a successful `remove_last_value_at_point` -/
def isRemoval {K V : Type} : Res (ZOut K V) → Bool
  | .ok (.optValue (some _)) => true
  | _ => false

/-- what holds of every map: the invariant, and the counter is not too small -/
structure Good (m : ZosditMap K V) : Prop where
  inv : ZInv m.inner
  len : m.iter.length ≤ m.len

omit [LawfulPoint I] [LawfulInterval I K] in
theorem good_new : Good (new : ZosditMap K V) := ⟨ZInv.nil, by simp [new, iter, flatten]⟩

omit [LawfulPoint I] [LawfulInterval I K] in
theorem insert_step {m : ZosditMap K V} (h : Good m) {k : K} (hk : start k ≤ stop k) (v : V) (pick : Nat) :
    ((∃ e ∈ m.iter, ¬ (stop e.1 ≤ start k ∨ stop k ≤ start e.1)) ∧ m.insertStrictBack k v pick = .ok (m, .error ⟨v⟩)) ∨
    ((∀ e ∈ m.iter, stop e.1 ≤ start k ∨ stop k ≤ start e.1) ∧
      ∃ m' l1 k' l2, m.insertStrictBack k v pick = .ok (m', .ok ()) ∧ Good m' ∧ m.iter = l1 ++ l2 ∧ m'.iter = l1 ++ (k', v) :: l2 ∧
        m'.len = m.len + 1 ∧ start k' = start k ∧ stop k' = stop k ∧ (k' = k ∨ ∃ e ∈ m.iter, e.1 = k') ∧
        (∀ e ∈ l1, stop e.1 ≤ start k) ∧ (∀ e ∈ l2, stop k ≤ start e.1) ∧
        ((NoDup m.inner ∨ start k < stop k) → ∀ e ∈ l2, ¬ (start e.1 = start k ∧ stop e.1 = stop k)) ∧
        (NoDup m.inner → NoDup m'.inner) ∧
        ((∀ e ∈ m.iter, ¬ (start e.1 = start k ∧ stop e.1 = stop k)) → k' = k)) := by
  rcases insert_ok h.inv hk v pick with ⟨h1, h2⟩ | ⟨h1, l', h2, h3⟩
  · left
    refine ⟨?_, h2⟩
    by_contra hc
    have := (h.inv.forall_iff (fun x => stop x ≤ start k ∨ stop k ≤ start x)).2 (fun e he => by
      by_contra hn; exact hc ⟨e, he, hn⟩)
    obtain ⟨e, he, hn⟩ := h1
    exact hn (this e he)
  · right
    refine ⟨(h.inv.forall_iff (fun x => stop x ≤ start k ∨ stop k ≤ start x)).1 h1, ?_⟩
    obtain ⟨l'', l1, k', l2, e1, e2, e3, e4, e5, e6, e7, e8, e9, e10, e11, e12, e13⟩ := entryPush_ok h.inv hk v pick h1
    rw [h2] at e1
    cases e1
    refine ⟨_, l1, k', l2, h3, ⟨e2, ?_⟩, e3, e4, rfl, e5, e6, ?_, e8, e9, e11, e12, ?_⟩
    · have := h.len
      simp only [iter, e3, e4, List.length_append, List.length_cons] at *
      omega
    · rcases e7 with e7 | ⟨d, hd, hdk⟩
      · exact Or.inl e7
      · right
        by_contra hc
        have := (h.inv.forall_iff (fun x => x ≠ k')).2 (fun e he hek => hc ⟨e, he, hek⟩)
        exact this d hd hdk
    · intro hall
      exact e13 ((h.inv.forall_iff (fun x => ¬ (start x = start k ∧ stop x = stop k))).2 hall)

theorem step_ok {m : ZosditMap K V} (h : Good m) (op : ZOp I K V) :
    (op.Bad ∧ m.step op = .error .invalidInterval) ∨
    (¬ op.Bad ∧ ∃ m' o, m.step op = .ok (m', o) ∧ Good m' ∧
      m'.len + m.iter.length = m.len + m'.iter.length + (if isRemoval (.ok o) then 1 else 0) ∧
      (isRemoval (.ok o) = true → op.isRemove = true) ∧
      (op.isCut = false → NoDup m.inner → NoDup m'.inner)) := by
  cases op with
  | insertStrictBack k v pick =>
    by_cases hk : Valid k
    · right
      refine ⟨fun hc => hc hk, ?_⟩
      rw [valid_iff] at hk
      rcases insert_step h hk v pick with ⟨-, h2⟩ | ⟨-, m', l1, k', l2, e1, e2, e3, e4, e5, -, -, -, -, -, -, e6, -⟩
      · exact ⟨m, _, by rw [step, h2]; rfl, h, by simp [isRemoval], by simp [isRemoval], fun _ h => h⟩
      · refine ⟨m', _, by rw [step, e1]; rfl, e2, ?_, by simp [isRemoval], fun _ => e6⟩
        rw [e3, e4, e5]
        simp [isRemoval]
        omega
    · left
      refine ⟨hk, ?_⟩
      rw [valid_iff] at hk
      rw [step, insertStrictBack, invalidIntervalPanic_err hk]; rfl
  | removeLastValueAtPoint p =>
    right
    refine ⟨id, ?_⟩
    rcases last_ok h.inv p with ⟨-, h2, -⟩ | ⟨v, m', l1, k, l2, -, h2, -, h3, h4, -, h5, h6, h7, -⟩
    · exact ⟨m, _, by rw [step, h2]; rfl, h, by simp [isRemoval], by simp [isRemoval], fun _ h => h⟩
    · refine ⟨m', _, by rw [step, h2]; rfl, ⟨h6, ?_⟩, ?_, fun _ => rfl, fun _ => h7⟩
      · have := h.len
        rw [h3] at this
        rw [h4, h5]
        simp only [List.length_append, List.length_cons] at *
        omega
      · rw [h3, h4, h5]
        simp [isRemoval]
        omega
  | cut q =>
    by_cases hq : Valid q
    · right
      refine ⟨fun hc => hc hq, ?_⟩
      rw [valid_iff] at hq
      rcases cut_ok h.inv hq h.len with ⟨-, -, h3⟩ | ⟨-, m', h1, h2, h3, h4⟩
      · exact ⟨m, _, by rw [step, h3]; rfl, h, by simp [isRemoval], by simp [isRemoval], fun _ h => h⟩
      · refine ⟨m', _, by rw [step, h1]; rfl, ⟨h3, ?_⟩, by simpa [isRemoval] using h4, by simp [isRemoval],
          fun hc => by cases hc⟩
        have := h.len
        omega
    · left
      refine ⟨hq, ?_⟩
      rw [valid_iff] at hq
      rw [step, ZosditMap.cut, invalidIntervalPanic_err hq]; rfl

theorem run_ok {m : ZosditMap K V} (h : Good m) (ops : List (ZOp I K V)) :
    Good (m.run ops).1 ∧
      (m.run ops).1.len + m.iter.length = m.len + (m.run ops).1.iter.length + (m.run ops).2.countP isRemoval ∧
      ((m.run ops).2.countP isRemoval ≤ ops.countP ZOp.isRemove) ∧
      (NoDup m.inner → (∀ op ∈ ops, op.isCut = false) → NoDup (m.run ops).1.inner) := by
  induction ops generalizing m with
  | nil => exact ⟨h, by simp [run], by simp [run], fun h _ => h⟩
  | cons op ops ih =>
    rcases step_ok h op with ⟨-, h1⟩ | ⟨-, m', o, h1, h2, h3, h4, h5⟩
    · obtain ⟨i1, i2, i3, i4⟩ := ih h
      rw [run, h1]
      refine ⟨i1, ?_, ?_, ?_⟩
      · rw [List.countP_cons]
        simpa [isRemoval] using i2
      · rw [List.countP_cons, List.countP_cons]
        have : isRemoval (Except.error Panic.invalidInterval : Res (ZOut K V)) = false := rfl
        simp only [this, Bool.false_eq_true, if_false]
        omega
      · intro hn hc; exact i4 hn fun op hop => hc op (by simp [hop])
    · obtain ⟨i1, i2, i3, i4⟩ := ih h2
      rw [run, h1]
      refine ⟨i1, ?_, ?_, ?_⟩
      · rw [List.countP_cons]
        simp only at i2 ⊢
        omega
      · rw [List.countP_cons, List.countP_cons]
        by_cases hr : isRemoval (Except.ok o) = true
        · rw [if_pos hr, if_pos (h4 hr)]; omega
        · rw [if_neg hr]; omega
      · intro hn hc; exact i4 (h5 (hc op (by simp)) hn) fun op hop => hc op (by simp [hop])
end
end ZosditMap
end Nodit
