import Verif.Props.ZosditExact
import Verif.Props.Pointwise
import Verif.Props.Demo
/-!
# C103: emptying a point of a `ZosditMap`, and cutting twice

The client loop `while let Some(v) = map.remove_last_value_at_point(p) { values.push(v) }`, and `cut(q)` called again.
-/
set_option linter.unusedSectionVars false
namespace Nodit
open Spec PointType IntervalType InclusiveInterval ZosditMap
variable {I K V Q : Type} [PointType I] [IntervalType I K] [IntervalType I Q] [LawfulPoint I] [LawfulInterval I K]

/-- A terminating run of `while let Some(v) = m.remove_last_value_at_point(p) { values.push(v) }`: it starts with the first map, pushes
the values in this order, and ends with the last map. -/
inductive Drains (p : I) : ZosditMap K V → List V → ZosditMap K V → Prop
  | done {m m' : ZosditMap K V} : m.removeLastValueAtPoint p = .ok (m', none) → Drains p m [] m'
  | more {m m' m'' : ZosditMap K V} {v : V} {vs : List V} : m.removeLastValueAtPoint p = .ok (m', some v) → Drains p m' vs m'' →
      Drains p m (v :: vs) m''

theorem drain_good {m : ZosditMap K V} (hg : ZInv m.inner) (p : I) :
    ∃ vs m' l1 r l2, Drains p m vs m' ∧ m.iter = l1 ++ r ++ l2 ∧ m'.iter = l1 ++ l2 ∧ vs = (r.map Prod.snd).reverse ∧
      (∀ e ∈ r, Mem p e.1) ∧ (∀ e ∈ l2, ¬ Mem p e.1) ∧ NotFound m'.iter p ∧ m'.getLastValueAtPoint p = none ∧ m'.len = m.len := by
  induction hn : m.iter.length generalizing m with
  | zero =>
    have : m.iter = [] := List.length_eq_zero_iff.1 hn
    rcases lookup_exact hg p with ⟨h1, h2, h3⟩ | ⟨-, v, m', l1, k, l2, -, -, h3, -⟩
    · exact ⟨[], m, m.iter, [], [], .done h3, by simp, by simp, by simp, by simp, by simp, h1, h2, rfl⟩
    · rw [this] at h3; simp at h3
  | succ n ih =>
    rcases lookup_exact hg p with ⟨h1, h2, h3⟩ | ⟨-, v, m1, l1, k, l2, h1, h2, h3, h4, h5, h6, h7, h8, -⟩
    · exact ⟨[], m, m.iter, [], [], .done h3, by simp, by simp, by simp, by simp, by simp, h1, h2, rfl⟩
    · obtain ⟨vs, m', a, r, b, e1, e2, e3, e4, e5, e6, e7, e8, e9⟩ := ih h8 (by rw [h3] at hn; rw [h4]; simp at hn ⊢; omega)
      rcases List.eq_nil_or_concat r with rfl | ⟨r', y, rfl⟩
      · refine ⟨v :: vs, m', l1, [(k, v)], l2, .more h2 e1, by rw [h3]; simp, ?_, by rw [e4]; simp, by simpa using h5, h6, e7, e8,
          e9.trans h7⟩
        rw [e3, ← h4, e2]; simp
      · have hy : Mem p y.1 := e5 y (by simp)
        -- nothing lies between the entries removed later and this one
        have hcut : a ++ (r' ++ [y]) = l1 ∧ b = l2 := by
          have he : l1 ++ l2 = (a ++ (r' ++ [y])) ++ b := by rw [← h4, e2]; simp
          rcases List.append_eq_append_iff.1 he with ⟨c, hc1, hc2⟩ | ⟨c, hc1, hc2⟩
          · rcases List.eq_nil_or_concat c with rfl | ⟨c', z, rfl⟩
            · simp at hc1 hc2; exact ⟨by simpa using hc1, hc2.symm⟩
            · have : y = z := by
                have := congrArg List.getLast? hc1
                simpa [List.getLast?_append] using this
              subst this
              exact absurd hy (h6 _ (by rw [hc2]; simp))
          · cases c with
            | nil => simp at hc1 hc2; exact ⟨by simpa using hc1.symm, hc2⟩
            | cons z c =>
              exfalso
              have hz : ¬ Mem p z.1 := e6 z (by rw [hc2]; simp)
              obtain ⟨hv, hp⟩ := hg.flat
              have hp' : m.iter.Pairwise (fun a b => stop a.1 ≤ start b.1) := hp
              have hm : m.iter = (a ++ r') ++ y :: (z :: c ++ (k, v) :: l2) := by rw [h3, hc1]; simp
              rw [hm, List.pairwise_append] at hp'
              obtain ⟨-, hp', -⟩ := hp'
              rw [List.pairwise_cons] at hp'
              obtain ⟨hyz, hp'⟩ := hp'
              rw [List.cons_append, List.pairwise_cons] at hp'
              have h10 := hyz z (by simp)
              have h11 := hp'.1 (k, v) (by simp)
              have h12 : start z.1 ≤ stop z.1 := hv z (by show z ∈ m.iter; rw [hm]; simp)
              have := hy.1; have := hy.2; have := h5.1; have := h5.2
              exact hz ⟨by simp only at h11; order, by simp only at h11; order⟩
        obtain ⟨rfl, rfl⟩ := hcut
        refine ⟨v :: vs, m', a, r' ++ [y] ++ [(k, v)], b, .more h2 e1, by rw [h3]; simp, e3, by rw [e4]; simp, ?_, e6, e7, e8,
          e9.trans h7⟩
        intro e he
        rcases List.mem_append.1 he with he | he
        · exact e5 e (by simpa using he)
        · obtain rfl := List.mem_singleton.1 he; exact h5

theorem Drains.unique {p : I} {m m1 m2 : ZosditMap K V} {vs ws : List V} (h : Drains p m vs m1) (h' : Drains p m ws m2) :
    vs = ws ∧ m1 = m2 := by
  induction h generalizing ws with
  | done h =>
    cases h' with
    | done h2 => rw [h] at h2; cases h2; exact ⟨rfl, rfl⟩
    | more h2 _ => rw [h] at h2; cases h2
  | more h _ ih =>
    cases h' with
    | done h2 => rw [h] at h2; cases h2
    | more h2 h3 =>
      rw [h] at h2; cases h2
      obtain ⟨rfl, rfl⟩ := ih h3
      exact ⟨rfl, rfl⟩

/-- **C103**: after any history the loop terminates (no call in it panics) with exactly one outcome: the entries taken out are a
consecutive run of entries containing `p`, their values come out last first, all other entries stay as they are, and
`get_last_value_at_point(p)` is `None` afterwards. (`len()` is not changed by the loop: C64.) -/
theorem C103_drain (ops : List (ZOp I K V)) (p : I) :
    ∃ vs m' l1 taken l2, Drains p (after ops) vs m' ∧ (∀ ws n, Drains p (after ops) ws n → ws = vs ∧ n = m') ∧
      (after ops).iter = l1 ++ taken ++ l2 ∧ m'.iter = l1 ++ l2 ∧ vs = (taken.map Prod.snd).reverse ∧
      (∀ e ∈ taken, Mem p e.1) ∧ (∀ e ∈ l2, ¬ Mem p e.1) ∧ m'.getLastValueAtPoint p = none ∧ m'.length = (after ops).length := by
  obtain ⟨vs, m', l1, r, l2, h1, h2, h3, h4, h5, h6, -, h8, h9⟩ := drain_good (good_after ops).inv p
  exact ⟨vs, m', l1, r, l2, h1, fun ws n h => h.unique h1, h2, h3, h4, h5, h6, h8, h9⟩

open Classical in
/-- **C103**: the loop takes every entry containing `p`, unless some of them end at `p` while an entry that does not contain `p` goes
beyond `p` (the lookups miss these, C40): in particular if no entry containing `p` ends there, or if nothing lies above `p`. -/
theorem C103_drain_takes_all (ops : List (ZOp I K V)) (p : I)
    (h : (∀ e ∈ (after ops).iter, Mem p e.1 → ∃ x, Mem x e.1 ∧ p < x) ∨
      (∀ e ∈ (after ops).iter, (∃ x, Mem x e.1 ∧ p < x) → Mem p e.1)) :
    ∃ m', Drains p (after ops) (((after ops).iter.filter (fun e => Mem p e.1)).map Prod.snd).reverse m' ∧
      m'.iter = (after ops).iter.filter (fun e => ¬ Mem p e.1) := by
  obtain ⟨vs, m', l1, r, l2, h1, h2, h3, h4, h5, h6, h7, -⟩ := drain_good (good_after ops).inv p
  have hsub : ∀ e ∈ m'.iter, e ∈ (after ops).iter := by
    intro e he; rw [h3] at he; rw [h2]; simp only [List.mem_append] at he ⊢; tauto
  have hno : ∀ e ∈ m'.iter, ¬ Mem p e.1 := by
    rcases h7 with h7 | ⟨⟨e, he, x, hx, hlt⟩, h7⟩
    · exact h7
    · rcases h with h | h
      · intro d hd hp
        obtain ⟨y, hy, hlt'⟩ := h d (hsub d hd) hp
        have := h7 d hd hp y hy
        order
      · have hp := h e (hsub e he) ⟨x, hx, hlt⟩
        have := h7 e he hp x hx
        order
  have f1 : l1.filter (fun e => decide (Mem p e.1)) = [] :=
    List.filter_eq_nil_iff.2 fun e he => by simpa using hno e (by rw [h3]; simp [he])
  have f2 : r.filter (fun e => decide (Mem p e.1)) = r := List.filter_eq_self.2 fun e he => by simpa using h5 e he
  have f3 : l2.filter (fun e => decide (Mem p e.1)) = [] := List.filter_eq_nil_iff.2 fun e he => by simpa using h6 e he
  have g1 : l1.filter (fun e => decide (¬ Mem p e.1)) = l1 :=
    List.filter_eq_self.2 fun e he => by simpa using hno e (by rw [h3]; simp [he])
  have g2 : r.filter (fun e => decide (¬ Mem p e.1)) = [] := List.filter_eq_nil_iff.2 fun e he => by simpa using h5 e he
  have g3 : l2.filter (fun e => decide (¬ Mem p e.1)) = l2 := List.filter_eq_self.2 fun e he => by simpa using h6 e he
  refine ⟨m', ?_, ?_⟩
  · rw [h2, List.filter_append, List.filter_append, f1, f2, f3, List.nil_append, List.append_nil, ← h4]; exact h1
  · rw [h3, h2, List.filter_append, List.filter_append, g1, g2, g3, List.append_nil]

namespace Demo
/-- three values stored at one point, with nothing above: taken out last first -/
example : let ops : List (ZOp U8 (Interval U8) Nat) :=
      [.insertStrictBack (iv 2 5) 1 0, .insertStrictBack (iv 5 5) 2 0, .insertStrictBack (iv 5 5) 3 0, .insertStrictBack (iv 0 1) 4 0]
    ∃ m', Drains (u8 5) (after ops) [3, 2, 1] m' ∧ m'.iter = [(iv 0 1, 4)] := by
  intro ops
  refine ⟨_, .more (v := 3) rfl (.more (v := 2) rfl (.more (v := 1) rfl (.done rfl))), by decide⟩

/-- with an entry above the point, the entries that end there stay -/
example : let ops : List (ZOp U8 (Interval U8) Nat) := [.insertStrictBack (iv 2 5) 1 0, .insertStrictBack (iv 5 8) 2 0, .insertStrictBack (iv 9 9) 3 0]
    ∃ m', Drains (u8 5) (after ops) [2] m' ∧ m'.iter = [(iv 2 5, 1), (iv 9 9, 3)] := by
  intro ops
  exact ⟨_, .more (v := 2) rfl (.done rfl), by decide⟩
end Demo

/-! ## cutting again -/

theorem cutAll_left {q : Q} {l left returned : List (K × V)} (h : CutAll q l left returned) : ∀ e ∈ left, ¬ Overlap e.1 q := by
  have hpart : ∀ {P : I → Prop} {v : V} {l : List (K × V)}, Part P v l → (∀ p, P p → ¬ Mem p q) → ∀ e ∈ l, ¬ Overlap e.1 q := by
    rintro P v l (⟨-, rfl⟩ | ⟨i, ⟨-, hi⟩, rfl⟩) hP e he
    · cases he
    · obtain rfl := List.mem_singleton.1 he
      rintro ⟨x, hx, hxq⟩
      exact hP x ((hi x).1 (mem_ofInterval.1 hx)) hxq
  induction h with
  | nil => intro e he; cases he
  | @cons e l left returned left' returned' hc _ ih =>
    intro d hd
    rcases List.mem_append.1 hd with hd | hd
    · obtain ⟨-, h1, h2⟩ := hc
      by_cases ho : Overlap e.1 q
      · obtain ⟨below, above, rfl, hb, ha⟩ := h2 ho
        rcases List.mem_append.1 hd with hd | hd
        · exact hpart hb (fun p hp hq => absurd (hp.2 p hq) (lt_irrefl _)) d hd
        · exact hpart ha (fun p hp hq => absurd (hp.2 p hq) (lt_irrefl _)) d hd
      · rw [h1 ho] at hd
        obtain rfl := List.mem_singleton.1 hd; exact ho
    · exact ih d hd

theorem cutAll_disjoint {q : Q} {l left returned : List (K × V)} (h : CutAll q l left returned) (hd : ∀ e ∈ l, ¬ Overlap e.1 q) :
    left = l ∧ returned = [] := by
  induction h with
  | nil => exact ⟨rfl, rfl⟩
  | @cons e l left returned left' returned' hc _ ih =>
    obtain ⟨h0, h1, -⟩ := hc
    have ho := hd e (by simp)
    obtain ⟨rfl, rfl⟩ := ih fun d h => hd d (List.mem_cons_of_mem _ h)
    refine ⟨by rw [h1 ho]; rfl, ?_⟩
    rcases h0 with ⟨-, rfl⟩ | ⟨i, ⟨⟨x, hx⟩, hi⟩, -⟩
    · rfl
    · exact absurd ⟨x, (hi x).1 hx⟩ ho

/-- **C103**: after a `cut(q)` that did something, no entry overlaps `q`; a second `cut(q)` then returns nothing and leaves all entries as
they are, and so does a `cut` of any interval whose points are in `q`. -/
theorem C103_cut_twice (ops : List (ZOp I K V)) {q : Q} (hq : Valid q) {m' : ZosditMap K V} {returned : List (K × V)}
    (hc : (after ops).cut q = .ok (m', returned)) (hr : returned ≠ []) :
    m'.overlapping q = .ok [] ∧
    ∀ r : Interval I, Valid r → (∀ p, Mem p r → Mem p q) → ∃ m'', m'.cut r = .ok (m'', []) ∧ m''.iter = m'.iter := by
  have hq' := valid_iff.1 hq
  rcases cut_exact (good_after ops) hq with ⟨-, h2⟩ | ⟨-, m1, r, h2, h3, h4, -⟩
  · rw [hc] at h2; cases h2; exact absurd rfl hr
  · rw [hc] at h2; cases h2
    have hl := cutAll_left h3
    refine ⟨?_, fun r hrv hsub => ?_⟩
    · rw [overlapping_ok h4.inv hq', List.filter_eq_nil_iff.2]
      intro e he
      have := hl e he
      rw [overlap_iff (h4.inv.flat.1 e he) hq'] at this
      simpa using this
    · have hl' : ∀ e ∈ m'.iter, ¬ Overlap e.1 r := fun e he ⟨x, hx, hxr⟩ => hl e he ⟨x, hx, hsub x hxr⟩
      rcases cut_exact h4 hrv with ⟨-, h5⟩ | ⟨-, m2, r2, h5, h6, -, -⟩
      · exact ⟨_, h5, rfl⟩
      · obtain ⟨e1, rfl⟩ := cutAll_disjoint h6 hl'
        exact ⟨_, h5, e1⟩

namespace Demo
example : let ops : List (ZOp U8 (Interval U8) Nat) := [.insertStrictBack (iv 2 5) 1 0, .insertStrictBack (iv 5 8) 2 0]
    ∃ m', (after ops).cut (iv 4 6) = .ok (m', [(iv 4 5, 1), (iv 5 6, 2)]) ∧ m'.iter = [(iv 2 3, 1), (iv 7 8, 2)] := ⟨_, rfl, by decide⟩
end Demo
end Nodit
