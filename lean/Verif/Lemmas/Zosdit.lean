import Verif.Zosdit
import Verif.Lemmas.Cut
/-!
# `ZosditMap`: the invariant and what the operations do
-/
set_option linter.unusedSectionVars false
set_option linter.unusedSimpArgs false
namespace Nodit
open Spec PointType

variable {I K Q V : Type} [PointType I] [IntervalType I K] [IntervalType I Q]

theorem exclusive_gt {k : K} (hk : start k ≤ stop k) (p : I) :
    (exclusiveComp p .gt k == .gt) = decide (stop k ≤ p) := by
  unfold exclusiveComp
  split_ifs with h1 h2 h3
  · simp [h1.2]
  · have : ¬ stop k ≤ p := fun hc => h1 ⟨by order, by order⟩
    simp [this]
  · simp [h3]
  · simp [h3]

theorem exclusive_lt {k : K} (_hk : start k ≤ stop k) (p : I) :
    (exclusiveComp p .lt k != .lt) = decide (start k < p) := by
  unfold exclusiveComp
  split_ifs with h1 h2 h3
  · simp [h1.1]
  · simp [h2]
  · simp [not_le.1 h2]
  · simp [not_le.1 h2]

namespace ZosditMap

/-- the invariant of the stored sequence -/
structure ZInv (l : List (K × List V)) : Prop where
  valid : ∀ e ∈ l, start e.1 ≤ stop e.1
  store : ∀ e ∈ l, e.2 ≠ []
  seq : l.Pairwise (fun a b => stop a.1 ≤ start b.1)
  multi : ∀ e ∈ l, e.2.length ≤ 1 ∨ start e.1 = stop e.1

/-- no two stores for the same interval -/
def NoDup (l : List (K × List V)) : Prop := l.Pairwise (fun a b => start a.1 < stop b.1)

theorem flatten_cons (e : K × List V) (l : List (K × List V)) :
    flatten (e :: l) = e.2.map (fun v => (e.1, v)) ++ flatten l := rfl
theorem flatten_append (l l' : List (K × List V)) : flatten (l ++ l') = flatten l ++ flatten l' := by
  simp [flatten]
theorem flatten_nil : flatten ([] : List (K × List V)) = [] := rfl

theorem mem_flatten {l : List (K × List V)} {e : K × V} : e ∈ flatten l ↔ ∃ d ∈ l, d.1 = e.1 ∧ e.2 ∈ d.2 := by
  simp only [flatten, List.mem_flatMap, List.mem_map]
  constructor
  · rintro ⟨d, hd, v, hv, rfl⟩; exact ⟨d, hd, rfl, hv⟩
  · rintro ⟨d, hd, h1, h2⟩; exact ⟨d, hd, e.2, h2, by rw [h1]⟩

theorem filter_flatten (P : K → Bool) (l : List (K × List V)) :
    flatten (l.filter (fun e => P e.1)) = (flatten l).filter (fun e => P e.1) := by
  induction l with
  | nil => rfl
  | cons e l ih =>
    rw [flatten_cons, List.filter_append, List.filter_cons]
    cases h : P e.1 with
    | true =>
      simp only [if_true]
      rw [flatten_cons, ih]
      congr 1
      rw [List.filter_eq_self.2]
      intro a ha
      obtain ⟨v, -, rfl⟩ := List.mem_map.1 ha
      exact h
    | false =>
      simp only [Bool.false_eq_true, if_false]
      rw [ih]
      conv_lhs => rw [← List.nil_append (List.filter _ _)]
      congr 1
      symm
      rw [List.filter_eq_nil_iff]
      intro a ha
      obtain ⟨v, -, rfl⟩ := List.mem_map.1 ha
      simp [h]

theorem ZInv.forall_iff {l : List (K × List V)} (h : ZInv l) (P : K → Prop) :
    (∀ e ∈ l, P e.1) ↔ ∀ e ∈ flatten l, P e.1 := by
  constructor
  · intro hp e he
    obtain ⟨d, hd, h1, -⟩ := mem_flatten.1 he
    rw [← h1]; exact hp d hd
  · intro hp d hd
    obtain ⟨v, hv⟩ := List.exists_mem_of_ne_nil _ (h.store d hd)
    exact hp (d.1, v) (mem_flatten.2 ⟨d, hd, rfl, hv⟩)

theorem ZInv.cons {e : K × List V} {l : List (K × List V)} : ZInv (e :: l) ↔
    start e.1 ≤ stop e.1 ∧ e.2 ≠ [] ∧ (e.2.length ≤ 1 ∨ start e.1 = stop e.1) ∧ (∀ x ∈ l, stop e.1 ≤ start x.1) ∧ ZInv l := by
  constructor
  · intro h
    have := List.pairwise_cons.1 h.seq
    exact ⟨h.valid e (by simp), h.store e (by simp), h.multi e (by simp), this.1,
      ⟨fun x hx => h.valid x (by simp [hx]), fun x hx => h.store x (by simp [hx]), this.2, fun x hx => h.multi x (by simp [hx])⟩⟩
  · rintro ⟨h1, h2, h3, h4, h5⟩
    refine ⟨?_, ?_, List.pairwise_cons.2 ⟨h4, h5.seq⟩, ?_⟩
    · intro x hx; rcases List.mem_cons.1 hx with rfl | hx
      · exact h1
      · exact h5.valid x hx
    · intro x hx; rcases List.mem_cons.1 hx with rfl | hx
      · exact h2
      · exact h5.store x hx
    · intro x hx; rcases List.mem_cons.1 hx with rfl | hx
      · exact h3
      · exact h5.multi x hx

theorem ZInv.nil : ZInv ([] : List (K × List V)) := ⟨by simp, by simp, by simp, by simp⟩

theorem ZInv.append {l l' : List (K × List V)} : ZInv (l ++ l') ↔
    ZInv l ∧ ZInv l' ∧ ∀ a ∈ l, ∀ b ∈ l', stop a.1 ≤ start b.1 := by
  constructor
  · intro h
    obtain ⟨h1, h2, h3⟩ := List.pairwise_append.1 h.seq
    exact ⟨⟨fun e he => h.valid e (by simp [he]), fun e he => h.store e (by simp [he]), h1, fun e he => h.multi e (by simp [he])⟩,
      ⟨fun e he => h.valid e (by simp [he]), fun e he => h.store e (by simp [he]), h2, fun e he => h.multi e (by simp [he])⟩, h3⟩
  · rintro ⟨h1, h2, h3⟩
    refine ⟨?_, ?_, List.pairwise_append.2 ⟨h1.seq, h2.seq, h3⟩, ?_⟩ <;> intro e he <;>
      rcases List.mem_append.1 he with he | he
    · exact h1.valid e he
    · exact h2.valid e he
    · exact h1.store e he
    · exact h2.store e he
    · exact h1.multi e he
    · exact h2.multi e he

/-- the iteration sequence of a map satisfying the invariant -/
theorem ZInv.flat {l : List (K × List V)} (h : ZInv l) :
    (∀ e ∈ flatten l, start e.1 ≤ stop e.1) ∧ (flatten l).Pairwise (fun a b => stop a.1 ≤ start b.1) := by
  refine ⟨(h.forall_iff (fun k => start k ≤ stop k)).1 h.valid, ?_⟩
  induction l with
  | nil => simp [flatten]
  | cons e l ih =>
    obtain ⟨h1, h2, h3, h4, h5⟩ := ZInv.cons.1 h
    rw [flatten_cons, List.pairwise_append]
    refine ⟨?_, ih h5, ?_⟩
    · rw [List.pairwise_map]
      rcases h3 with h3 | h3
      · match he : e.2, h3 with
        | [], _ => simp
        | [v], _ => simp
      · exact List.pairwise_iff_getElem.2 fun _ _ _ _ _ => h3.ge
    · intro a ha b hb
      obtain ⟨v, -, rfl⟩ := List.mem_map.1 ha
      obtain ⟨d, hd, hd1, -⟩ := mem_flatten.1 hb
      rw [← hd1]; exact h4 d hd

theorem mem_length {l : List (K × List V)} {e : K × List V} (he : e ∈ l) : e.2.length ≤ (flatten l).length := by
  induction l with
  | nil => simp at he
  | cons a l ih =>
    rw [flatten_cons, List.length_append, List.length_map]
    rcases List.mem_cons.1 he with rfl | he
    · omega
    · have := ih he; omega

/-! ## `is_zero_overlap` and `insert_strict_back` -/

theorem isZeroOverlap_ok {m : ZosditMap K V} (h : ZInv m.inner) {q : Q} (hq : start q ≤ stop q) :
    ∃ b, m.isZeroOverlap q = .ok b ∧ (b = true ↔ ∀ e ∈ m.inner, stop e.1 ≤ start q ∨ stop q ≤ start e.1) := by
  unfold isZeroOverlap BTree.range
  rw [invalidIntervalPanic_ok hq]
  refine ⟨_, rfl, ?_⟩
  have e1 : m.inner.dropWhile (fun e => exclusiveComp (start q) .gt e.1 == .gt) =
      m.inner.filter (fun e => decide (start q < stop e.1)) := by
    rw [dropWhile_eq_filter]
    · refine List.filter_congr fun e he => ?_
      rw [exclusive_gt (h.valid e he)]
      simp only [← not_le, decide_not]
    · refine List.Pairwise.imp_of_mem ?_ h.seq
      intro a b ha hb hab
      rw [exclusive_gt (h.valid a ha), exclusive_gt (h.valid b hb), decide_eq_true_eq, decide_eq_true_eq]
      intro h1; have := h.valid b hb; order
  rw [e1]
  have hf : (m.inner.filter (fun e => decide (start q < stop e.1))).takeWhile (fun e => exclusiveComp (stop q) .lt e.1 != .lt)
     = (m.inner.filter (fun e => decide (start q < stop e.1))).filter (fun e => decide (start e.1 < stop q)) := by
    rw [takeWhile_eq_filter]
    · refine List.filter_congr fun e he => exclusive_lt (h.valid e (List.mem_filter.1 he).1) _
    · refine List.Pairwise.imp_of_mem ?_ (h.seq.filter _)
      intro a b ha hb hab
      rw [exclusive_lt (h.valid a (List.mem_filter.1 ha).1), exclusive_lt (h.valid b (List.mem_filter.1 hb).1),
        decide_eq_true_eq, decide_eq_true_eq]
      intro h1; have := h.valid a (List.mem_filter.1 ha).1; order
  rw [hf, Option.isNone_iff_eq_none, List.head?_eq_none_iff, List.filter_filter, List.filter_eq_nil_iff]
  refine forall_congr' fun e => imp_congr_right fun he => ?_
  simp only [Bool.and_eq_true, decide_eq_true_eq]
  constructor
  · intro h1
    by_contra hc
    rw [not_or] at hc
    exact h1 ⟨not_le.1 hc.2, not_le.1 hc.1⟩
  · rintro (h1 | h1) ⟨h2, h3⟩ <;> order

theorem insertComp_ok {k e : K} (hk : start k ≤ stop k) (he : start e ≤ stop e)
    (hz : stop e ≤ start k ∨ stop k ≤ start e) :
    (insertComp k e = .ok .eq ∧ start e = start k ∧ stop e = start k ∧ stop k = start k) ∨
    (insertComp k e = .ok .gt ∧ stop e ≤ start k ∧ start e < stop k) ∨
    (insertComp k e = .ok .lt ∧ stop k ≤ start e ∧ start k < stop e) := by
  by_cases hs : start e = start k ∧ stop e = start k ∧ stop k = start k
  · left
    refine ⟨?_, hs⟩
    obtain ⟨h1, h2, h3⟩ := hs
    simp [insertComp, exclusiveComp, h1, h2, h3]
  right
  rcases hz with hz | hz
  · left
    have hlt : start e < stop k := by
      by_contra hc
      exact hs ⟨by order, by order, by order⟩
    refine ⟨?_, hz, hlt⟩
    have h1 : exclusiveComp (start k) .gt e = .gt := by
      have := exclusive_gt he (start k)
      simpa [hz] using this
    have h2 : exclusiveComp (stop k) .lt e = .gt := by
      have h3 : ¬ (stop k = start e ∧ stop k = stop e) := fun hc => by have := hc.1; order
      have h4 : ¬ stop k ≤ start e := not_le.2 hlt
      have h5 : stop k ≥ stop e := by order
      unfold exclusiveComp; rw [if_neg h3, if_neg h4, if_pos h5]
    simp [insertComp, h1, h2]
  · right
    have hlt : start k < stop e := by
      by_contra hc
      exact hs ⟨by order, by order, by order⟩
    refine ⟨?_, hz, hlt⟩
    have h1 : exclusiveComp (start k) .gt e = .lt := by
      have h3 : ¬ (start k = start e ∧ start k = stop e) := fun hc => by have := hc.2; order
      have h4 : start k ≤ start e := by order
      unfold exclusiveComp; rw [if_neg h3, if_pos h4]
    have h2 : exclusiveComp (stop k) .lt e = .lt := by
      have := exclusive_lt he (stop k)
      simpa [not_lt.2 hz] using this
    simp [insertComp, h1, h2]

theorem entryPush_ok {l : List (K × List V)} (h : ZInv l) {k : K} (hk : start k ≤ stop k) (v : V) (pick : Nat)
    (hz : ∀ e ∈ l, stop e.1 ≤ start k ∨ stop k ≤ start e.1) :
    ∃ l' l1 k' l2, entryPush (insertComp k) k v pick l = .ok l' ∧ ZInv l' ∧ flatten l = l1 ++ l2 ∧
      flatten l' = l1 ++ (k', v) :: l2 ∧ start k' = start k ∧ stop k' = stop k ∧
      (k' = k ∨ ∃ e ∈ l, e.1 = k') ∧ (∀ e ∈ l1, stop e.1 ≤ start k) ∧ (∀ e ∈ l2, stop k ≤ start e.1) ∧
      (∀ x ∈ l', (∃ y ∈ l, y.1 = x.1) ∨ x.1 = k) ∧
      ((NoDup l ∨ start k < stop k) → ∀ e ∈ l2, ¬ (start e.1 = start k ∧ stop e.1 = stop k)) ∧
      (NoDup l → NoDup l') ∧
      ((∀ e ∈ l, ¬ (start e.1 = start k ∧ stop e.1 = stop k)) → k' = k) := by
  induction l generalizing pick with
  | nil =>
    exact ⟨[(k, [v])], [], k, [], rfl, ⟨by simp [hk], by simp, by simp, by simp⟩, rfl, rfl, rfl, rfl, Or.inl rfl, by simp,
      by simp, by simp, by simp, fun _ => by simp [NoDup], fun _ => rfl⟩
  | cons e l ih =>
    obtain ⟨h1, h2, h3, h4, h5⟩ := ZInv.cons.1 h
    rcases insertComp_ok hk h1 (hz e (by simp)) with ⟨hc, c1, c2, c3⟩ | ⟨hc, c1, c2⟩ | ⟨hc, c1, c2⟩
    · have hcases : entryPush (insertComp k) k v pick (e :: l) = .ok ((e.1, e.2 ++ [v]) :: l) ∨
          (∃ e' ∈ l, start e'.1 = start k ∧ stop e'.1 = start k) ∧ ∃ pick', ∀ l', entryPush (insertComp k) k v pick' l = .ok l' →
            entryPush (insertComp k) k v pick (e :: l) = .ok (e :: l') := by
        cases l with
        | nil => left; rw [entryPush, hc]; cases pick <;> rfl
        | cons e' l =>
          rcases insertComp_ok hk (h5.valid e' (by simp)) (hz e' (by simp)) with ⟨hc', d1, d2, d3⟩ | ⟨hc', -⟩ | ⟨hc', -⟩
          · cases pick with
            | zero => left; rw [entryPush, hc]; simp only [bind, Except.bind, hc']; rfl
            | succ pick =>
              right
              refine ⟨⟨e', by simp, d1, d2⟩, pick, fun l' hl' => ?_⟩
              rw [entryPush, hc]; simp only [bind, Except.bind, hc', pure, Except.pure, decide_true, hl']
          · left; rw [entryPush, hc]; simp only [bind, Except.bind, hc']; cases pick <;> rfl
          · left; rw [entryPush, hc]; simp only [bind, Except.bind, hc']; cases pick <;> rfl
      rcases hcases with hhere | ⟨⟨d, hd, hd1, hd2⟩, pick', hnext⟩
      · refine ⟨(e.1, e.2 ++ [v]) :: l, e.2.map (fun v => (e.1, v)), e.1, flatten l, ?_, ?_, rfl, ?_, c1, by rw [c2, c3], ?_, ?_, ?_, ?_, ?_, ?_, ?_⟩
        · exact hhere
        · exact ZInv.cons.2 ⟨h1, by simp, Or.inr (by simp [c1, c2]), h4, h5⟩
        · simp [flatten_cons]
        · exact Or.inr ⟨e, by simp, rfl⟩
        · intro x hx
          obtain ⟨w, -, rfl⟩ := List.mem_map.1 hx
          exact c2.le
        · intro x hx
          obtain ⟨d, hd, hd1, -⟩ := mem_flatten.1 hx
          rw [← hd1, c3, ← c2]; exact h4 d hd
        · intro x hx
          rcases List.mem_cons.1 hx with rfl | hx
          · exact Or.inl ⟨e, by simp, rfl⟩
          · exact Or.inl ⟨x, by simp [hx], rfl⟩
        · rintro (hn | hn) x hx
          · obtain ⟨d, hd, hd1, -⟩ := mem_flatten.1 hx
            have := (List.pairwise_cons.1 hn).1 d hd
            rw [← hd1]
            rintro ⟨-, hc2⟩
            rw [c1, hc2, c3] at this
            exact lt_irrefl _ this
          · rw [c3] at hn; exact absurd hn (lt_irrefl _)
        · intro hn
          obtain ⟨n1, n2⟩ := List.pairwise_cons.1 hn
          exact List.pairwise_cons.2 ⟨n1, n2⟩
        · intro hall
          exact absurd ⟨c1, by rw [c2, c3]⟩ (hall e (by simp))
      · obtain ⟨l', l1, k', l2, e1, e2, e3, e4, e5, e6, e7, e8, e9, e10, e11, e12, e13⟩ := ih h5 pick' (fun x hx => hz x (by simp [hx]))
        have hx : ∀ x ∈ l', stop e.1 ≤ start x.1 := by
          intro x hx
          rcases e10 x hx with ⟨y, hy, hyx⟩ | hxk
          · rw [← hyx]; exact h4 y hy
          · rw [hxk]; exact c2.le
        have hnd : ¬ NoDup (e :: l) := by
          intro hn
          have := (List.pairwise_cons.1 hn).1 d hd
          rw [c1, hd2] at this; exact lt_irrefl _ this
        refine ⟨e :: l', e.2.map (fun v => (e.1, v)) ++ l1, k', l2, hnext l' e1, ZInv.cons.2 ⟨h1, h2, h3, hx, e2⟩, ?_, ?_, e5, e6, ?_, ?_, e9,
          ?_, ?_, fun hn => absurd hn hnd, ?_⟩
        · rw [flatten_cons, e3, List.append_assoc]
        · rw [flatten_cons, e4, List.append_assoc]
        · rcases e7 with e7 | ⟨y, hy, hyk⟩
          · exact Or.inl e7
          · exact Or.inr ⟨y, by simp [hy], hyk⟩
        · intro x hx
          rcases List.mem_append.1 hx with hx | hx
          · obtain ⟨w, -, rfl⟩ := List.mem_map.1 hx
            exact c2.le
          · exact e8 x hx
        · intro x hx
          rcases List.mem_cons.1 hx with rfl | hx
          · exact Or.inl ⟨x, by simp, rfl⟩
          · rcases e10 x hx with ⟨y, hy, hyx⟩ | hxk
            · exact Or.inl ⟨y, by simp [hy], hyx⟩
            · exact Or.inr hxk
        · rintro (hn | hn)
          · exact absurd hn hnd
          · exact e11 (Or.inr hn)
        · intro hall
          exact absurd ⟨c1, by rw [c2, c3]⟩ (hall e (by simp))
    · obtain ⟨l', l1, k', l2, e1, e2, e3, e4, e5, e6, e7, e8, e9, e10, e11, e12, e13⟩ := ih h5 pick (fun x hx => hz x (by simp [hx]))
      have hx : ∀ x ∈ l', stop e.1 ≤ start x.1 := by
        intro x hx
        rcases e10 x hx with ⟨y, hy, hyx⟩ | hxk
        · rw [← hyx]; exact h4 y hy
        · rw [hxk]; exact c1
      refine ⟨e :: l', e.2.map (fun v => (e.1, v)) ++ l1, k', l2, ?_, ZInv.cons.2 ⟨h1, h2, h3, hx, e2⟩, ?_, ?_, e5, e6, ?_, ?_, e9,
        ?_, ?_, ?_, ?_⟩
      · rw [entryPush, hc]; simp only [bind, Except.bind, e1]; rfl
      · rw [flatten_cons, e3, List.append_assoc]
      · rw [flatten_cons, e4, List.append_assoc]
      · rcases e7 with e7 | ⟨y, hy, hyk⟩
        · exact Or.inl e7
        · exact Or.inr ⟨y, by simp [hy], hyk⟩
      · intro x hx
        rcases List.mem_append.1 hx with hx | hx
        · obtain ⟨w, -, rfl⟩ := List.mem_map.1 hx
          exact c1
        · exact e8 x hx
      · intro x hx
        rcases List.mem_cons.1 hx with rfl | hx
        · exact Or.inl ⟨x, by simp, rfl⟩
        · rcases e10 x hx with ⟨y, hy, hyx⟩ | hxk
          · exact Or.inl ⟨y, by simp [hy], hyx⟩
          · exact Or.inr hxk
      · rintro (hn | hn)
        · exact e11 (Or.inl (List.pairwise_cons.1 hn).2)
        · exact e11 (Or.inr hn)
      · intro hn
        obtain ⟨n1, n2⟩ := List.pairwise_cons.1 hn
        refine List.pairwise_cons.2 ⟨fun x hx => ?_, e12 n2⟩
        rcases e10 x hx with ⟨y, hy, hyx⟩ | hxk
        · rw [← hyx]; exact n1 y hy
        · rw [hxk]; exact c2
      · intro hall
        exact e13 (fun x hx => hall x (by simp [hx]))
    · have hx : ∀ x ∈ e :: l, stop k ≤ start x.1 ∧ start k < stop x.1 := by
        intro x hx
        rcases List.mem_cons.1 hx with rfl | hx
        · exact ⟨c1, c2⟩
        · have := h4 x hx; have := h5.valid x hx
          exact ⟨by order, by order⟩
      refine ⟨(k, [v]) :: e :: l, [], k, flatten (e :: l), ?_, ZInv.cons.2 ⟨hk, by simp, by simp, fun x hx' => (hx x hx').1, h⟩, rfl, rfl,
        rfl, rfl, Or.inl rfl, by simp, ?_, ?_, ?_, ?_, fun _ => rfl⟩
      · rw [entryPush, hc]; rfl
      · intro x hx'
        obtain ⟨d, hd, hd1, -⟩ := mem_flatten.1 hx'
        rw [← hd1]; exact (hx d hd).1
      · intro x hx'
        rcases List.mem_cons.1 hx' with rfl | hx'
        · exact Or.inr rfl
        · exact Or.inl ⟨x, hx', rfl⟩
      · rintro - x hx' ⟨hc1, hc2⟩
        obtain ⟨d, hd, hd1, -⟩ := mem_flatten.1 hx'
        obtain ⟨h6, h7⟩ := hx d hd
        rw [hd1] at h6 h7
        rw [hc1] at h6; rw [hc2] at h7; order
      · intro hn
        exact List.pairwise_cons.2 ⟨fun x hx' => (hx x hx').2, hn⟩

theorem insert_ok {m : ZosditMap K V} (h : ZInv m.inner) {k : K} (hk : start k ≤ stop k) (v : V) (pick : Nat) :
    ((∃ e ∈ m.inner, ¬ (stop e.1 ≤ start k ∨ stop k ≤ start e.1)) ∧ m.insertStrictBack k v pick = .ok (m, .error ⟨v⟩)) ∨
    ((∀ e ∈ m.inner, stop e.1 ≤ start k ∨ stop k ≤ start e.1) ∧
      ∃ l', entryPush (insertComp k) k v pick m.inner = .ok l' ∧ m.insertStrictBack k v pick = .ok (⟨m.len + 1, l'⟩, .ok ())) := by
  obtain ⟨b, hb, hiff⟩ := isZeroOverlap_ok h hk
  unfold insertStrictBack
  rw [invalidIntervalPanic_ok hk]
  simp only [bind, Except.bind, hb]
  cases b with
  | true =>
    obtain ⟨l', _, _, _, e1, -⟩ := entryPush_ok h hk v pick (hiff.1 rfl)
    exact Or.inr ⟨hiff.1 rfl, l', e1, by simp [e1]; rfl⟩
  | false =>
    left
    refine ⟨?_, by simp; rfl⟩
    by_contra hc
    have : (∀ e ∈ m.inner, stop e.1 ≤ start k ∨ stop k ≤ start e.1) := fun e he => by
      by_contra hn; exact hc ⟨e, he, hn⟩
    exact absurd (hiff.2 this) (by simp)

/-! ## `get_last_value_at_point` and `remove_last_value_at_point` -/

theorem lastCursor {m : ZosditMap K V} (h : ZInv m.inner) (p : I) :
    (m.inner = [] ∧ m.lastAtPointCursor p = ⟨[], []⟩) ∨
    ∃ pre k vs rest, m.inner = pre ++ (k, vs) :: rest ∧ m.lastAtPointCursor p = ⟨pre, (k, vs) :: rest⟩ ∧
      (∀ x ∈ pre, stop x.1 ≤ p) ∧ (p < stop k ∨ (rest = [] ∧ stop k ≤ p)) := by
  unfold lastAtPointCursor BTree.lowerBound
  have hanti : m.inner.Pairwise (fun a b => (exclusiveComp p .gt b.1 == .gt) = true → (exclusiveComp p .gt a.1 == .gt) = true) := by
    refine List.Pairwise.imp_of_mem ?_ h.seq
    intro a b ha hb hab
    rw [exclusive_gt (h.valid a ha), exclusive_gt (h.valid b hb), decide_eq_true_eq, decide_eq_true_eq]
    intro h1; have := h.valid b hb; order
  have hsplit := List.takeWhile_append_dropWhile (p := fun e : K × List V => exclusiveComp p .gt e.1 == .gt) (l := m.inner)
  have hpre : ∀ x ∈ m.inner.takeWhile (fun e => exclusiveComp p .gt e.1 == .gt), stop x.1 ≤ p := by
    intro x hx
    have h1 := List.all_eq_true.1 (List.all_takeWhile (p := fun e : K × List V => exclusiveComp p .gt e.1 == .gt) (l := m.inner)) x hx
    have h2 : x ∈ m.inner := List.takeWhile_subset _ hx
    rw [exclusive_gt (h.valid x h2), decide_eq_true_eq] at h1
    exact h1
  have hpost : ∀ x, (m.inner.dropWhile (fun e => exclusiveComp p .gt e.1 == .gt)).head? = some x → p < stop x.1 := by
    intro x hx
    have h1 := List.head?_dropWhile_not (p := fun e : K × List V => exclusiveComp p .gt e.1 == .gt) m.inner
    rw [hx] at h1
    have h2 : x ∈ m.inner := List.dropWhile_subset _ (List.mem_of_head? hx)
    simp only [Bool.not_eq_true'] at h1
    rw [exclusive_gt (h.valid x h2), decide_eq_false_iff_not] at h1
    exact not_le.1 h1
  generalize m.inner.takeWhile (fun e => exclusiveComp p .gt e.1 == .gt) = pre at hsplit hpre
  generalize m.inner.dropWhile (fun e => exclusiveComp p .gt e.1 == .gt) = post at hsplit hpost
  cases post with
  | nil =>
    rw [List.append_nil] at hsplit
    rw [← hsplit]
    rcases List.eq_nil_or_concat pre with rfl | ⟨pre', e, rfl⟩
    · exact Or.inl ⟨rfl, rfl⟩
    · refine Or.inr ⟨pre', e.1, e.2, [], by simp, ?_, fun x hx => hpre x (by simp [hx]), Or.inr ⟨rfl, hpre e (by simp)⟩⟩
      simp [BTree.Cursor.key, BTree.Cursor.movePrev]
  | cons e post =>
    exact Or.inr ⟨pre, e.1, e.2, post, hsplit.symm, by simp [BTree.Cursor.key], hpre, Or.inl (hpost e rfl)⟩

/-- what `get_last_value_at_point` and `remove_last_value_at_point` find -/
theorem last_ok {m : ZosditMap K V} (h : ZInv m.inner) (p : I) :
    (m.getLastValueAtPoint p = none ∧ m.removeLastValueAtPoint p = .ok (m, none) ∧
      ((∀ e ∈ m.inner, ¬ Mem p e.1) ∨ ((∃ e ∈ m.inner, p < stop e.1) ∧ ∀ e ∈ m.inner, Mem p e.1 → stop e.1 = p))) ∨
    ∃ v m' l1 k l2, m.getLastValueAtPoint p = some v ∧ m.removeLastValueAtPoint p = .ok (m', some v) ∧ Mem p k ∧
      m.iter = l1 ++ (k, v) :: l2 ∧ m'.iter = l1 ++ l2 ∧ (∀ e ∈ l2, ¬ Mem p e.1) ∧ m'.len = m.len ∧ ZInv m'.inner ∧
      (NoDup m.inner → NoDup m'.inner) ∧ (p < stop k ∨ ∀ e ∈ m.inner, stop e.1 ≤ p) := by
  unfold getLastValueAtPoint removeLastValueAtPoint
  rcases lastCursor h p with ⟨h1, h2⟩ | ⟨pre, k, vs, rest, h1, h2, h3, h4⟩
  · left
    rw [h2]
    exact ⟨rfl, rfl, Or.inl (by simp [h1])⟩
  · rw [h2]
    have hz := h
    rw [h1, ZInv.append, ZInv.cons] at hz
    obtain ⟨z1, ⟨z2, z3, z4, z5, z6⟩, z7⟩ := hz
    simp only at z2 z3 z4 z5
    have hrest : ∀ x ∈ rest, ¬ Mem p x.1 := by
      intro x hx hp
      rcases h4 with h4 | ⟨rfl, -⟩
      · have := z5 x hx; have := hp.1; order
      · simp at hx
    by_cases hp : Mem p k
    · right
      have hcp : InclusiveInterval.containsPoint k p = true := by
        simp only [InclusiveInterval.containsPoint, Bool.and_eq_true, decide_eq_true_eq, ge_iff_le]; exact hp
      rcases List.eq_nil_or_concat vs with rfl | ⟨vs', v, rfl⟩
      · exact absurd rfl z3
      · simp only [List.concat_eq_append, BTree.Cursor.keyValue, List.head?_cons, Option.filter_some, hcp, if_true, Option.bind_some,
          List.getLast?_concat, List.dropLast_concat, unwrap, bind, Except.bind, pure, Except.pure]
        have hbound : p < stop k ∨ ∀ e ∈ m.inner, stop e.1 ≤ p := by
          rcases h4 with h4 | ⟨rfl, h4⟩
          · exact Or.inl h4
          · right
            intro e he
            rw [h1] at he
            rcases List.mem_append.1 he with he | he
            · exact h3 e he
            · rw [List.mem_singleton] at he; subst he; exact h4
        refine ⟨v, _, flatten pre ++ vs'.map (fun v => (k, v)), k, flatten rest, rfl, rfl, hp, ?_, ?_, ?_, rfl, ?_, ?_, hbound⟩
        · simp [iter, h1, flatten_append, flatten_cons]
        · cases vs' with
          | nil => simp [iter, BTree.Cursor.removeCurrent, BTree.Cursor.entries, flatten_append]
          | cons w ws => simp [iter, BTree.Cursor.entries, flatten_append, flatten_cons]
        · intro e he
          obtain ⟨d, hd, hd1, -⟩ := mem_flatten.1 he
          rw [← hd1]; exact hrest d hd
        · cases vs' with
          | nil =>
            simp only [List.isEmpty_nil, if_true, BTree.Cursor.removeCurrent, BTree.Cursor.entries]
            exact ZInv.append.2 ⟨z1, z6, fun a ha b hb => z7 a ha b (by simp [hb])⟩
          | cons w ws =>
            simp only [List.isEmpty_cons, Bool.false_eq_true, if_false, BTree.Cursor.entries]
            refine ZInv.append.2 ⟨z1, ZInv.cons.2 ⟨z2, by simp, ?_, z5, z6⟩, ?_⟩
            · rcases z4 with z4 | z4
              · simp at z4
              · exact Or.inr z4
            · intro a ha b hb
              rcases List.mem_cons.1 hb with rfl | hb
              · exact z7 a ha (k, (w :: ws).concat v) (List.mem_cons_self ..)
              · exact z7 a ha b (by simp [hb])
        · intro hn
          unfold NoDup at hn
          rw [h1, List.pairwise_append, List.pairwise_cons] at hn
          obtain ⟨n1, ⟨n2, n3⟩, n4⟩ := hn
          cases vs' with
          | nil =>
            simp only [List.isEmpty_nil, if_true, BTree.Cursor.removeCurrent, BTree.Cursor.entries]
            exact List.pairwise_append.2 ⟨n1, n3, fun a ha b hb => n4 a ha b (by simp [hb])⟩
          | cons w ws =>
            simp only [List.isEmpty_cons, Bool.false_eq_true, if_false, BTree.Cursor.entries]
            refine List.pairwise_append.2 ⟨n1, List.pairwise_cons.2 ⟨n2, n3⟩, ?_⟩
            intro a ha b hb
            rcases List.mem_cons.1 hb with rfl | hb
            · exact n4 a ha (k, (w :: ws).concat v) (List.mem_cons_self ..)
            · exact n4 a ha b (by simp [hb])
    · left
      have hcp : InclusiveInterval.containsPoint k p = false := by
        rw [Bool.eq_false_iff]
        intro hc
        simp only [InclusiveInterval.containsPoint, Bool.and_eq_true, decide_eq_true_eq, ge_iff_le] at hc
        exact hp hc
      refine ⟨by simp [BTree.Cursor.keyValue, hcp], by simp [hcp]; rfl, ?_⟩
      rcases h4 with h4 | ⟨rfl, h4⟩
      · right
        refine ⟨⟨(k, vs), by simp [h1], h4⟩, fun e he hpe => ?_⟩
        rw [h1] at he
        rcases List.mem_append.1 he with he | he
        · exact le_antisymm (h3 e he) hpe.2
        · rcases List.mem_cons.1 he with rfl | he
          · exact absurd hpe hp
          · exact absurd hpe (hrest e he)
      · left
        intro e he hpe
        rw [h1] at he
        rcases List.mem_append.1 he with he | he
        · have h5 := z7 e he (k, vs) (by simp)
          have h6 := hpe.2
          exact hp ⟨by simp only at h5; order, by simp only at h5; order⟩
        · rw [List.mem_singleton] at he; subst he; exact hp hpe

/-! ## `cut` and `overlapping` -/
section
variable [LawfulPoint I]

theorem cutLoop_ok {l : List (K × List V)} (h : ZInv l) {q : Q} (hq : start q ≤ stop q) (hl : ∀ e ∈ l, start q ≤ stop e.1)
    {len : Nat} (hlen : (flatten l).length ≤ len) :
    ∃ len', cutLoop q len l = .ok (l.flatMap (cutOut q), flatten (l.flatMap (cutIn q)), len') ∧
      len' + (flatten l).length = len + (flatten (l.flatMap (cutOut q))).length := by
  induction l generalizing len with
  | nil => exact ⟨len, rfl, by simp [flatten]⟩
  | cons e l ih =>
    obtain ⟨k, vs⟩ := e
    rw [ZInv.cons] at h
    obtain ⟨h1, h2, h3, h4, h5⟩ := h
    simp only at h1 h2 h3 h4
    have hle : start q ≤ stop k := hl (k, vs) (by simp)
    unfold cutLoop
    rw [Nodit.overlaps_ok h1 hq]
    simp only [bind, Except.bind, pure, Except.pure]
    rw [flatten_cons, List.length_append, List.length_map] at hlen
    simp only at hlen
    by_cases ho : start k ≤ stop q
    · have hov : ovl q (k, vs) = true := by simp [ovl, ho, hle]
      rw [cutInterval_ok h1 hq ⟨ho, hle⟩]
      have hmap : ∀ x : Interval I, (vs.mapM (fun v => (Except.ok ((ofInterval x : K), v) : Res (K × V)))) = .ok (vs.map (fun v => (ofInterval x, v))) := by
        intro x
        clear * -
        induction vs with
        | nil => rfl
        | cons v vs ih => simp [List.mapM_cons, bind, Except.bind, pure, Except.pure, ih]
      have hmap' := hmap ⟨max (start k) (start q), min (stop k) (stop q)⟩
      simp only [ho, hle, and_self, decide_true, Bool.not_true, Bool.false_eq_true, if_false, unwrap]
      rw [List.flatMap_cons, List.flatMap_cons, cutOut_of_ovl hov]
      simp only [cutIn, hov, if_true]
      generalize (if start k < start q then (down (start q)).map (fun d => (⟨start k, d⟩ : Interval I)) else none) = b
      generalize (if stop q < stop k then (up (stop q)).map (fun u => (⟨u, stop k⟩ : Interval I)) else none) = a
      rw [hmap']
      have hl' : ∀ x ∈ l, start q ≤ stop x.1 := fun x hx => hl x (by simp [hx])
      cases b with
      | none =>
        cases a with
        | none =>
          obtain ⟨len', e1, e2⟩ := ih h5 hl' (len := len - vs.length) (by omega)
          simp only [if_neg (show ¬ len < vs.length by omega), e1]
          refine ⟨len', rfl, ?_⟩
          simp only [flatten_cons, flatten_append, List.length_append, List.length_map, flatten_nil, List.length_nil] at *
          omega
        | some a =>
          obtain ⟨len', e1, e2⟩ := ih h5 hl' (len := len + vs.length - vs.length) (by omega)
          simp only [if_neg (show ¬ len + vs.length < vs.length by omega), e1]
          refine ⟨len', rfl, ?_⟩
          simp only [flatten_cons, flatten_append, List.length_append, List.length_map, flatten_nil, List.length_nil] at *
          omega
      | some b =>
        cases a with
        | none =>
          obtain ⟨len', e1, e2⟩ := ih h5 hl' (len := len + vs.length - vs.length) (by omega)
          simp only [if_neg (show ¬ len + vs.length < vs.length by omega), e1]
          refine ⟨len', rfl, ?_⟩
          simp only [flatten_cons, flatten_append, List.length_append, List.length_map, flatten_nil, List.length_nil] at *
          omega
        | some a =>
          obtain ⟨len', e1, e2⟩ := ih h5 hl' (len := len + vs.length + vs.length - vs.length) (by omega)
          simp only [if_neg (show ¬ len + vs.length + vs.length < vs.length by omega), e1]
          refine ⟨len', rfl, ?_⟩
          simp only [flatten_cons, flatten_append, List.length_append, List.length_map, flatten_nil, List.length_nil] at *
          omega
    · have hn : ∀ x ∈ (k, vs) :: l, ovl q x = false := by
        intro x hx
        simp only [ovl, decide_eq_false_iff_not, not_and]
        intro hx1
        exfalso
        rcases List.mem_cons.1 hx with rfl | hx
        · exact ho hx1
        · have := h4 x hx
          order
      have e1 : ((k, vs) :: l).flatMap (cutIn q) = [] := by
        rw [List.flatMap_eq_nil_iff]; intro x hx; simp [cutIn, hn x hx]
      have e2 : ((k, vs) :: l).flatMap (cutOut q) = (k, vs) :: l := by
        conv_rhs => rw [← List.flatMap_singleton' ((k, vs) :: l)]
        rw [List.flatMap_def, List.flatMap_def]
        congr 1
        apply List.map_congr_left
        intro x hx; simp [cutOut, hn x hx]
      rw [e1, e2]
      refine ⟨len, by simp [ho, flatten_nil], rfl⟩

theorem flatMap_id {α : Type} {f : α → List α} {l : List α} (h : ∀ x ∈ l, f x = [x]) : l.flatMap f = l := by
  induction l with
  | nil => rfl
  | cons a l ih => rw [List.flatMap_cons, h a (by simp), ih (fun x hx => h x (by simp [hx]))]; rfl

theorem flatten_cutOut {l : List (K × List V)} (h : ZInv l) {q : Q} :
    flatten (l.flatMap (cutOut q)) = (flatten l).flatMap (cutOut q) := by
  induction l with
  | nil => rfl
  | cons e l ih =>
    obtain ⟨k, vs⟩ := e
    obtain ⟨h1, h2, h3, h4, h5⟩ := ZInv.cons.1 h
    simp only at h1 h2 h3 h4
    rw [List.flatMap_cons, flatten_append, ih h5, flatten_cons, List.flatMap_append]
    congr 1
    rcases h3 with h3 | h3
    · match vs, h2, h3 with
      | [v], _, _ =>
        simp only [List.map_cons, List.map_nil, List.flatMap_cons, List.flatMap_nil, List.append_nil]
        by_cases ho : ovl q (k, v) = true
        · have ho' : ovl q (k, [v]) = true := ho
          rw [cutOut_of_ovl ho, cutOut_of_ovl ho']
          simp only
          generalize (if start k < start q then (down (start q)).map (fun d => (⟨start k, d⟩ : Interval I)) else none) = b
          generalize (if stop q < stop k then (up (stop q)).map (fun u => (⟨u, stop k⟩ : Interval I)) else none) = a
          cases b <;> cases a <;> rfl
        · have ho' : ¬ ovl q (k, [v]) = true := ho
          simp only [cutOut, ho, ho', if_false]
          rfl
    · by_cases ho : ovl q (k, vs) = true
      · have h6 := ho
        simp only [ovl, decide_eq_true_eq] at h6
        have n1 : ¬ start k < start q := by rw [h3]; exact not_lt.2 h6.2
        have n2 : ¬ stop q < stop k := by rw [← h3]; exact not_lt.2 h6.1
        have e1 : cutOut q (k, vs) = [] := by simp [cutOut, ho, n1, n2]
        rw [e1]
        symm
        simp only [flatten_nil, List.flatMap_eq_nil_iff, List.mem_map, forall_exists_index, and_imp]
        rintro x v hv rfl
        have ho' : ovl q (k, v) = true := ho
        simp [cutOut, ho', n1, n2]
      · have e1 : cutOut q (k, vs) = [(k, vs)] := by simp [cutOut, ho]
        rw [e1, flatMap_id]
        · simp [flatten_cons, flatten_nil]
        · rintro x hx
          obtain ⟨v, -, rfl⟩ := List.mem_map.1 hx
          have ho' : ¬ ovl q (k, v) = true := ho
          simp [cutOut, ho']

theorem flatten_cutIn {l : List (K × List V)} {q : Q} :
    flatten (l.flatMap (cutIn q)) = (flatten l).flatMap (cutIn q) := by
  induction l with
  | nil => rfl
  | cons e l ih =>
    obtain ⟨k, vs⟩ := e
    rw [List.flatMap_cons, flatten_append, ih, flatten_cons, List.flatMap_append]
    congr 1
    simp only
    by_cases ho : ovl q (k, vs) = true
    · have : ∀ v : V, ovl q (k, v) = true := fun _ => ho
      simp only [cutIn, ho, this, if_true, flatten_cons, flatten_nil, List.append_nil, List.flatMap_map]
      induction vs with
      | nil => rfl
      | cons v vs ih => simp [ih ho]
    · have : ∀ v : V, ¬ ovl q (k, v) = true := fun _ => ho
      have e1 : cutIn q (k, vs) = [] := by simp [cutIn, ho]
      rw [e1]
      symm
      simp only [flatten_nil, List.flatMap_eq_nil_iff, List.mem_map, forall_exists_index, and_imp]
      rintro x v hv rfl
      simp [cutIn, this v]

omit [LawfulPoint I] in
theorem overlapping_ok {m : ZosditMap K V} (h : ZInv m.inner) {q : Q} (hq : start q ≤ stop q) :
    m.overlapping q = .ok (m.iter.filter (fun e => decide (start e.1 ≤ stop q ∧ start q ≤ stop e.1))) := by
  unfold overlapping BTree.range iter
  rw [invalidIntervalPanic_ok hq, ← filter_flatten (fun k => decide (start k ≤ stop q ∧ start q ≤ stop k))]
  have g1 : ∀ e ∈ m.inner, (inclusiveComp (start q) .lt e.1 == .gt) = decide (stop e.1 < start q) := by
    intro e he
    have := h.valid e he
    unfold inclusiveComp
    split_ifs with h1 h2
    · have : ¬ stop e.1 < start q := by order
      simp [this]
    · simp [show stop e.1 < start q from h2]
    · have : ¬ stop e.1 < start q := h2
      simp [this]
  have g2 : ∀ e ∈ m.inner, (inclusiveComp (stop q) .gt e.1 != .lt) = decide (start e.1 ≤ stop q) := by
    intro e he
    unfold inclusiveComp
    split_ifs with h1 h2
    · simp [h1]
    · simp [not_lt.1 h1]
    · simp [not_lt.1 h1]
  rw [dropWhile_eq_filter, takeWhile_eq_filter]
  · rw [List.filter_filter]
    have : List.filter (fun a => (inclusiveComp (stop q) Ordering.gt a.1 != Ordering.lt) && !inclusiveComp (start q) Ordering.lt a.1 == Ordering.gt) m.inner
        = List.filter (fun e => decide (start e.1 ≤ stop q ∧ start q ≤ stop e.1)) m.inner := by
      refine List.filter_congr fun e he => ?_
      rw [g1 e he, g2 e he, Bool.decide_and]
      congr 1
      simp only [← not_lt, decide_not]
    rw [this]; rfl
  · refine List.Pairwise.imp_of_mem ?_ (h.seq.filter _)
    intro a b ha hb hab
    have ha := (List.mem_filter.1 ha).1
    have hb := (List.mem_filter.1 hb).1
    rw [g2 a ha, g2 b hb, decide_eq_true_eq, decide_eq_true_eq]
    intro h1; have := h.valid a ha; order
  · refine List.Pairwise.imp_of_mem ?_ h.seq
    intro a b ha hb hab
    rw [g1 a ha, g1 b hb, decide_eq_true_eq, decide_eq_true_eq]
    intro h1; have := h.valid b hb; order
end

section
variable [LawfulPoint I] [LawfulInterval I K]

theorem cutOut_inv {q : Q} (hq : start q ≤ stop q) {e : K × List V} (he : ZInv [e]) :
    ZInv (cutOut q e) ∧ ∀ x ∈ cutOut q e, start e.1 ≤ start x.1 ∧ stop x.1 ≤ stop e.1 := by
  obtain ⟨h1, h2, h3, -, -⟩ := ZInv.cons.1 he
  obtain ⟨k, vs⟩ := e
  simp only at h1 h2 h3
  by_cases ho : ovl q (k, vs) = true
  · have h6 := ho
    simp only [ovl, decide_eq_true_eq] at h6
    obtain ⟨h61, h62⟩ := h6
    rw [cutOut_of_ovl ho]
    simp only
    have hb : ∀ b, (if start k < start q then (down (start q)).map (fun d => (⟨start k, d⟩ : Interval I)) else none) = some b →
        b.start = start k ∧ b.start ≤ b.stop ∧ b.stop < start q ∧ start k < stop k := by
      intro b hb
      split_ifs at hb with hlt
      obtain ⟨d, hd, hd1, hd2, -⟩ := down_exists hlt
      rw [hd] at hb
      simp only [Option.map_some, Option.some.injEq] at hb
      subst hb
      exact ⟨rfl, hd2, hd1, by order⟩
    have ha : ∀ b, (if stop q < stop k then (up (stop q)).map (fun u => (⟨u, stop k⟩ : Interval I)) else none) = some b →
        b.stop = stop k ∧ b.start ≤ b.stop ∧ stop q < b.start ∧ start k < stop k := by
      intro b hb
      split_ifs at hb with hlt
      obtain ⟨d, hd, hd1, hd2, -⟩ := up_exists hlt
      rw [hd] at hb
      simp only [Option.map_some, Option.some.injEq] at hb
      subst hb
      exact ⟨rfl, hd2, hd1, by order⟩
    generalize (if start k < start q then (down (start q)).map (fun d => (⟨start k, d⟩ : Interval I)) else none) = b at hb
    generalize (if stop q < stop k then (up (stop q)).map (fun u => (⟨u, stop k⟩ : Interval I)) else none) = a at ha
    have hvs : start k < stop k → vs.length ≤ 1 := fun hlt => h3.resolve_right (by intro hc; order)
    cases b with
    | none =>
      cases a with
      | none => exact ⟨ZInv.nil, by simp⟩
      | some a =>
        obtain ⟨a1, a2, a3, a4⟩ := ha a rfl
        have := hvs a4
        refine ⟨ZInv.cons.2 ⟨by simpa using a2, h2, Or.inl (hvs a4), by simp, ZInv.nil⟩, ?_⟩
        simp only [List.nil_append, List.mem_singleton, forall_eq, start_of, stop_of]
        exact ⟨by order, by order⟩
    | some b =>
      obtain ⟨b1, b2, b3, b4⟩ := hb b rfl
      cases a with
      | none =>
        refine ⟨ZInv.cons.2 ⟨by simpa using b2, h2, Or.inl (hvs b4), by simp, ZInv.nil⟩, ?_⟩
        simp only [List.append_nil, List.mem_singleton, forall_eq, start_of, stop_of]
        exact ⟨by order, by order⟩
      | some a =>
        obtain ⟨a1, a2, a3, a4⟩ := ha a rfl
        refine ⟨ZInv.cons.2 ⟨by simpa using b2, h2, Or.inl (hvs b4), ?_, ZInv.cons.2 ⟨by simpa using a2, h2, Or.inl (hvs a4), by simp, ZInv.nil⟩⟩, ?_⟩
        · intro x hx
          rw [List.mem_singleton.1 hx]
          simp only [start_of, stop_of]
          exact b3.le.trans (hq.trans a3.le)
        · simp only [List.cons_append, List.nil_append, List.mem_cons, List.not_mem_nil, or_false, forall_eq_or_imp, forall_eq, start_of, stop_of]
          exact ⟨⟨by order, by order⟩, by order, by order⟩
  · rw [cutOut, if_neg ho]
    exact ⟨he, by simp⟩

theorem cutOut_list_inv {q : Q} (hq : start q ≤ stop q) {l : List (K × List V)} (h : ZInv l) :
    ZInv (l.flatMap (cutOut q)) := by
  induction l with
  | nil => exact ZInv.nil
  | cons e l ih =>
    obtain ⟨h1, h2, h3, h4, h5⟩ := ZInv.cons.1 h
    obtain ⟨c1, c2⟩ := cutOut_inv hq (e := e) (ZInv.cons.2 ⟨h1, h2, h3, by simp, ZInv.nil⟩)
    rw [List.flatMap_cons]
    refine ZInv.append.2 ⟨c1, ih h5, ?_⟩
    intro a ha b hb
    obtain ⟨d, hd, hbd⟩ := List.mem_flatMap.1 hb
    have hd' : ZInv [d] := ZInv.cons.2 ⟨h5.valid d hd, h5.store d hd, h5.multi d hd, by simp, ZInv.nil⟩
    have := (c2 a ha).2
    have := (cutOut_inv hq hd').2 b hbd |>.1
    have := h4 d hd
    order

/-- `cut`: either the last entry starting before `q` does not reach `q` and nothing happens, or every entry is cut -/
theorem cut_ok {m : ZosditMap K V} (h : ZInv m.inner) {q : Q} (hq : start q ≤ stop q) (hlen : m.iter.length ≤ m.len) :
    ((∃ e ∈ m.inner, start e.1 < start q) ∧ (∀ e ∈ m.inner, start e.1 < start q → stop e.1 < start q) ∧ m.cut q = .ok (m, [])) ∨
    (((∀ e ∈ m.inner, start q ≤ start e.1) ∨ ∃ e ∈ m.inner, start e.1 < start q ∧ start q ≤ stop e.1) ∧
      ∃ m', m.cut q = .ok (m', m.iter.flatMap (cutIn q)) ∧ m'.iter = m.iter.flatMap (cutOut q) ∧ ZInv m'.inner ∧
        m'.len + m.iter.length = m.len + m'.iter.length) := by
  unfold cut BTree.upperBound
  rw [invalidIntervalPanic_ok hq]
  have hanti : m.inner.Pairwise (fun a b => (exclusiveComp (start q) .lt b.1 != .lt) = true → (exclusiveComp (start q) .lt a.1 != .lt) = true) := by
    refine List.Pairwise.imp_of_mem ?_ h.seq
    intro a b ha hb hab
    rw [exclusive_lt (h.valid a ha), exclusive_lt (h.valid b hb), decide_eq_true_eq, decide_eq_true_eq]
    intro h1; have := h.valid a ha; order
  have hsplit := List.takeWhile_append_dropWhile (p := fun e : K × List V => exclusiveComp (start q) .lt e.1 != .lt) (l := m.inner)
  have e1 : m.inner.takeWhile (fun e => exclusiveComp (start q) .lt e.1 != .lt) = m.inner.filter (fun e => decide (start e.1 < start q)) := by
    rw [takeWhile_eq_filter hanti]
    exact List.filter_congr fun e he => exclusive_lt (h.valid e he) _
  have e2 : m.inner.dropWhile (fun e => exclusiveComp (start q) .lt e.1 != .lt) = m.inner.filter (fun e => decide (start q ≤ start e.1)) := by
    rw [dropWhile_eq_filter hanti]
    refine List.filter_congr fun e he => ?_
    rw [exclusive_lt (h.valid e he)]; simp only [← not_lt, decide_not]
  have hpre : ∀ e ∈ m.inner.takeWhile (fun e => exclusiveComp (start q) .lt e.1 != .lt), start e.1 < start q := by
    intro e he; rw [e1] at he; simpa using (List.mem_filter.1 he).2
  have hpost : ∀ e ∈ m.inner.dropWhile (fun e => exclusiveComp (start q) .lt e.1 != .lt), start q ≤ start e.1 := by
    intro e he; rw [e2] at he; simpa using (List.mem_filter.1 he).2
  generalize m.inner.takeWhile (fun e => exclusiveComp (start q) .lt e.1 != .lt) = pre at hsplit hpre
  generalize m.inner.dropWhile (fun e => exclusiveComp (start q) .lt e.1 != .lt) = post at hsplit hpost
  clear e1 e2 hanti
  simp only [bind, Except.bind, pure, Except.pure]
  rcases List.eq_nil_or_concat pre with rfl | ⟨pre, e, rfl⟩
  · right
    rw [List.nil_append] at hsplit
    subst hsplit
    refine ⟨Or.inl hpost, ?_⟩
    simp only [List.getLast?_nil, BTree.Cursor.key, List.head?_nil, Option.map_none, Option.isNone_none, if_true,
      BTree.Cursor.moveNext, List.nil_append]
    obtain ⟨len', c1, c2⟩ := cutLoop_ok h hq (fun e he => le_trans (hpost e he) (h.valid e he)) (len := m.len) hlen
    rw [c1]
    refine ⟨_, by rw [flatten_cutIn]; rfl, by simp only [iter]; exact flatten_cutOut h, cutOut_list_inv hq h, ?_⟩
    simp only [iter] at *; omega
  · rw [List.concat_eq_append] at hsplit hpre ⊢
    rw [List.append_assoc, List.singleton_append] at hsplit
    simp only [List.getLast?_concat, List.dropLast_concat, BTree.Cursor.key, List.head?_cons, Option.map_some, Option.isNone_some,
      Bool.false_eq_true, if_false]
    have hz := h
    rw [← hsplit, ZInv.append, ZInv.cons] at hz
    obtain ⟨z1, ⟨z2, z3, z4, z5, z6⟩, z7⟩ := hz
    have hes := hpre e (by simp)
    by_cases hr : start q ≤ stop e.1
    · right
      refine ⟨Or.inr ⟨e, by rw [← hsplit]; simp, hes, hr⟩, ?_⟩
      have hpren : ∀ x ∈ pre, ∀ v : V, ovl q (x.1, v) = false := by
        intro x hx v
        have := z7 x hx e (by simp)
        have : ¬ start q ≤ stop x.1 := by order
        simp [ovl, this]
      have hpren' : ∀ x ∈ pre, ovl q x = false := by
        intro x hx
        have := z7 x hx e (by simp)
        have : ¬ start q ≤ stop x.1 := by order
        simp [ovl, this]
      have hz' : ZInv (e :: post) := ZInv.cons.2 ⟨z2, z3, z4, z5, z6⟩
      have hiter : m.iter = flatten pre ++ flatten (e :: post) := by simp [iter, ← hsplit, flatten_append]
      obtain ⟨len', c1, c2⟩ := cutLoop_ok hz' hq (fun x hx => by
        rcases List.mem_cons.1 hx with rfl | hx
        · exact hr
        · exact le_trans (hpost x hx) (z6.valid x hx)) (len := m.len) (by rw [hiter, List.length_append] at hlen; omega)
      rw [c1]
      have hpo : pre.flatMap (cutOut q) = pre := flatMap_id fun x hx => by simp [cutOut, hpren' x hx]
      have hinner : m.inner.flatMap (cutOut q) = pre ++ (e :: post).flatMap (cutOut q) := by
        rw [← hsplit, List.flatMap_append, hpo]
      have hin : (m.iter).flatMap (cutIn q) = flatten ((e :: post).flatMap (cutIn q)) := by
        rw [hiter, List.flatMap_append, ← flatten_cutIn, ← flatten_cutIn]
        have : pre.flatMap (cutIn q) = [] := by
          rw [List.flatMap_eq_nil_iff]; intro x hx; simp [cutIn, hpren' x hx]
        rw [this]; rfl
      refine ⟨⟨len', pre ++ (e :: post).flatMap (cutOut q)⟩, by rw [hin], ?_, ?_, ?_⟩
      · rw [iter, iter, ← flatten_cutOut h, hinner]
      · rw [← hinner]; exact cutOut_list_inv hq h
      · rw [hiter]
        simp only [iter, flatten_append, List.length_append] at *
        omega
    · left
      refine ⟨⟨e, by rw [← hsplit]; simp, hes⟩, ?_, ?_⟩
      · intro x hx hxs
        rw [← hsplit] at hx
        rcases List.mem_append.1 hx with hx | hx
        · have := z7 x hx e (by simp); order
        · rcases List.mem_cons.1 hx with rfl | hx
          · exact not_le.1 hr
          · have := hpost x hx; order
      · obtain ⟨k, vs⟩ := e
        simp only at z2 hr hes
        rw [cutLoop, Nodit.overlaps_ok z2 hq]
        simp only [bind, Except.bind, hr, and_false, decide_false, Bool.not_false, if_true, pure, Except.pure]
        rw [hsplit]
end

end ZosditMap
end Nodit
