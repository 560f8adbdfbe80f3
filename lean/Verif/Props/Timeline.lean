import Verif.Props.ZosditClients
import Verif.Props.ZosditDrain
import Mathlib.Data.List.Chain
/-!
# C129: a `ZosditMap` as a timeline

A client appends segments to a `ZosditMap` with `insert_strict_back`, each starting where the one before it ended (segments of zero
length included), looks up which segment is in force at a point, cuts pieces out, and pops the last segment. On such gapless maps
the lookups and cuts that otherwise depart from their documentation (C40, C43) are exact.
-/
set_option linter.unusedSectionVars false
namespace Nodit
open Spec PointType IntervalType InclusiveInterval ZosditMap
variable {I K V Q : Type} [PointType I] [IntervalType I K] [IntervalType I Q] [LawfulPoint I] [LawfulInterval I K]

/-- the segments, with the `pick` of each call, as calls of `insert_strict_back`. A client, models no lines of `/repo`. -/
def Timeline.appends (l : List ((K × V) × Nat)) : List (ZOp I K V) := l.map fun e => .insertStrictBack e.1.1 e.1.2 e.2

/-- every segment ends at the point where the next one starts. A specification, models no lines of `/repo`. -/
def Timeline.Gapless (l : List (K × V)) : Prop :=
  l.IsChain fun a b => ∃ p, Mem p a.1 ∧ (∀ x, Mem x a.1 → x ≤ p) ∧ Mem p b.1 ∧ ∀ x, Mem x b.1 → p ≤ x

namespace Timeline
theorem gapless_iff {l : List (K × V)} (hv : ∀ e ∈ l, Valid e.1) : Gapless l ↔ l.IsChain fun a b => stop a.1 = start b.1 := by
  induction l with
  | nil => simp [Gapless]
  | cons a l ih =>
    cases l with
    | nil => simp [Gapless]
    | cons b l =>
      have ih := ih fun e he => hv e (by simp [he])
      unfold Gapless at ih ⊢
      rw [List.isChain_cons_cons, List.isChain_cons_cons, ih]
      have ha := valid_iff.1 (hv a (by simp))
      have hb := valid_iff.1 (hv b (by simp))
      refine and_congr_left' ⟨?_, ?_⟩
      · rintro ⟨p, h1, h2, h3, h4⟩
        have e1 := h2 (stop a.1) ⟨ha, le_refl _⟩
        have e2 := h4 (start b.1) ⟨le_refl _, hb⟩
        obtain ⟨-, h5⟩ := h1
        obtain ⟨h6, -⟩ := h3
        order
      · intro h
        exact ⟨stop a.1, ⟨ha, le_refl _⟩, fun x hx => hx.2, ⟨h ▸ le_refl _, h ▸ hb⟩, fun x hx => h ▸ hx.1⟩

theorem same_trans {l l₂ l₃ : List (K × V)} (h : SameEntries l l₂) (h' : SameEntries l₂ l₃) : SameEntries l l₃ := by
  induction h generalizing l₃ with
  | nil => cases h'; exact .nil
  | cons h1 _ ih => cases h' with | cons h2 h3 => exact .cons ⟨fun p => (h1.1 p).trans (h2.1 p), h1.2.trans h2.2⟩ (ih h3)

theorem append_step {s s' : ZState K V} {k : K} {v : V} {n : Nat} {o : ZOut K V} (hc : s.wasCut = false) (hk : Valid k)
    (hv : ∀ e ∈ s.entries, Valid e.1) (hb : ∀ e ∈ s.entries, stop e.1 ≤ start k)
    (h : ZSpecOp s (.insertStrictBack k v n : ZOp I K V) s' o) :
    o = .strict (.ok ()) ∧ ∃ k', SameInterval k' k ∧ Valid k' ∧ s' = { s with entries := s.entries ++ [(k', v)] } := by
  obtain ⟨h1, l', ⟨a, k', b, e1, e2, e3, -, -, -, e4, e5⟩, rfl⟩ := h.2 fun e he =>
    (zeroOverlap_iff (valid_iff.1 (hv e he)) (valid_iff.1 hk)).2 (Or.inl (hb e he))
  have : b = [] := by
    rw [List.eq_nil_iff_forall_not_mem]
    intro e he
    have hm : e ∈ s.entries := by rw [e1]; simp [he]
    have hev := valid_iff.1 (hv e hm)
    have hkv := valid_iff.1 hk
    refine e5 (Or.inl hc) e he ((sameInterval_iff hev hkv).2 ?_)
    have h2 := hb e hm
    have h3 := e4 e he (stop k) (start e.1) ⟨hkv, le_refl _⟩ ⟨le_refl _, hev⟩
    exact ⟨by order, by order⟩
  subst this
  simp only [List.append_nil] at e1
  obtain ⟨x, hx⟩ := hk
  exact ⟨h1, k', e3, ⟨x, (e3 x).2 hx⟩, by rw [e2, ← e1]⟩

theorem append_run (l : List ((K × V) × Nat)) {s s' : ZState K V} {os : List (Res (ZOut K V))} (hc : s.wasCut = false)
    (hv : ∀ e ∈ s.entries ++ l.map Prod.fst, Valid e.1)
    (hb : (s.entries ++ l.map Prod.fst).Pairwise fun a b => stop a.1 ≤ start b.1) (h : ZSpecRun s (appends l) s' os) :
    os = l.map (fun _ => .ok (.strict (.ok ()))) ∧ SameEntries s'.entries (s.entries ++ l.map Prod.fst) ∧ s'.removed = s.removed := by
  induction l generalizing s os with
  | nil => cases h; exact ⟨rfl, by simpa using ZClients.same_refl _, rfl⟩
  | cons e l ih =>
    obtain ⟨⟨k, v⟩, n⟩ := e
    cases h with
    | cons h1 h2 =>
      have hk : Valid k := hv (k, v) (by simp)
      rcases h1 with ⟨hbad, -⟩ | ⟨-, o, rfl, h1⟩
      · exact absurd hk hbad
      obtain ⟨rfl, k', e1, e2, rfl⟩ := append_step hc hk (fun e he => hv e (by simp [he]))
        (fun e he => (List.pairwise_append.1 hb).2.2 e he (k, v) (by simp)) h1
      have hkk := (sameInterval_iff (valid_iff.1 e2) (valid_iff.1 hk)).1 e1
      have hsame : SameEntries (s.entries ++ [(k', v)] ++ l.map Prod.fst) (s.entries ++ ((k, v), n).1 :: l.map Prod.fst) := by
        rw [List.append_assoc]
        exact List.rel_append (ZClients.same_refl _) (.cons ⟨e1, rfl⟩ (ZClients.same_refl _))
      have hv' : ∀ e ∈ s.entries ++ [(k', v)] ++ l.map Prod.fst, Valid e.1 := by
        intro e he
        simp only [List.mem_append, List.mem_cons, List.not_mem_nil, or_false] at he
        rcases he with (he | rfl) | he
        · exact hv e (by simp [he])
        · exact e2
        · exact hv e (by simp only [List.map_cons, List.mem_append, List.mem_cons]; tauto)
      have hb' : (s.entries ++ [(k', v)] ++ l.map Prod.fst).Pairwise fun a b => stop a.1 ≤ start b.1 := by
        rw [List.map_cons] at hb
        rw [List.append_assoc]
        simp only [List.singleton_append]
        rw [List.pairwise_append, List.pairwise_cons] at hb ⊢
        obtain ⟨b1, ⟨b2, b3⟩, b4⟩ := hb
        refine ⟨b1, ⟨fun e he => ?_, b3⟩, fun a ha b hb' => ?_⟩
        · rw [hkk.2]; exact b2 e he
        · rcases List.mem_cons.1 hb' with rfl | hb'
          · rw [hkk.1]; exact b4 a ha (k, v) (by simp)
          · exact b4 a ha b (by simp [hb'])
      obtain ⟨r1, r2, r3⟩ := ih (s := { s with entries := s.entries ++ [(k', v)] }) hc hv' hb' h2
      exact ⟨by rw [r1]; rfl, same_trans r2 hsame, r3⟩

theorem gapless_congr {l l₂ : List (K × V)} (h : SameEntries l l₂) (hg : Gapless l₂) : Gapless l := by
  unfold Gapless at hg ⊢
  induction h with
  | nil => simp
  | cons h1 h2 ih =>
    cases h2 with
    | nil => simp
    | cons h2 h3 =>
      rw [List.isChain_cons_cons] at hg ⊢
      obtain ⟨⟨p, g1, g2, g3, g4⟩, g5⟩ := hg
      exact ⟨⟨p, (h1.1 p).2 g1, fun x hx => g2 x ((h1.1 x).1 hx), (h2.1 p).2 g3, fun x hx => g4 x ((h2.1 x).1 hx)⟩, ih g5⟩

theorem pairwise_of_chain {l : List (K × V)} (hv : ∀ e ∈ l, Valid e.1) (h : l.IsChain fun a b => stop a.1 = start b.1) :
    l.Pairwise fun a b => stop a.1 ≤ start b.1 := by
  induction l with
  | nil => simp
  | cons a l ih =>
    have ih := ih (fun e he => hv e (by simp [he])) h.tail
    refine List.pairwise_cons.2 ⟨fun b hb => ?_, ih⟩
    cases l with
    | nil => simp at hb
    | cons c l =>
      have h1 := (List.isChain_cons_cons.1 h).1
      rcases List.mem_cons.1 hb with rfl | hb
      · exact h1.le
      · have := (List.pairwise_cons.1 ih).1 b hb
        have := valid_iff.1 (hv c (by simp))
        order

/-- the map is found to hold nothing at a point only if it does -/
theorem found {l : List (K × V)} (hv : ∀ e ∈ l, Valid e.1) (hg : l.IsChain fun a b => stop a.1 = start b.1) (p : I) :
    NotFound l p ↔ ∀ e ∈ l, ¬ Mem p e.1 := by
  refine ⟨?_, Or.inl⟩
  rintro (h | ⟨⟨d, hd, x, hx, hpx⟩, hend⟩)
  · exact h
  intro e he hpe
  -- the entries from `e` on end at `p`
  have key : ∀ (t : List (K × V)) (a : K × V), (∀ e ∈ a :: t, Valid e.1) → (a :: t).IsChain (fun a b => stop a.1 = start b.1) →
      (∀ e ∈ a :: t, Mem p e.1 → ∀ x, Mem x e.1 → x ≤ p) → Mem p a.1 → ∀ b ∈ a :: t, stop b.1 ≤ p := by
    intro t
    induction t with
    | nil =>
      intro a h1 _ h3 h4 b hb
      simp only [List.mem_singleton] at hb; subst hb
      exact h3 b (by simp) h4 _ ⟨valid_iff.1 (h1 b (by simp)), le_refl _⟩
    | cons c t ih =>
      intro a h1 h2 h3 h4 b hb
      have ha : stop a.1 ≤ p := h3 a (by simp) h4 _ ⟨valid_iff.1 (h1 a (by simp)), le_refl _⟩
      rcases List.mem_cons.1 hb with rfl | hb
      · exact ha
      · obtain ⟨g1, g2⟩ := List.isChain_cons_cons.1 h2
        have hc := valid_iff.1 (h1 c (by simp))
        obtain ⟨h5, h6⟩ := h4
        exact ih c (fun e he => h1 e (by simp only [List.mem_cons] at he ⊢; tauto)) g2
          (fun e he => h3 e (by simp only [List.mem_cons] at he ⊢; tauto)) ⟨by order, by order⟩ b hb
  obtain ⟨l1, l2, rfl⟩ := List.append_of_mem he
  have hp := pairwise_of_chain hv hg
  obtain ⟨hx1, hx2⟩ := hx
  obtain ⟨hp1, hp2⟩ := hpe
  rcases List.mem_append.1 hd with hd | hd
  · have := (List.pairwise_append.1 hp).2.2 d hd e (by simp)
    order
  · have := key l2 e (fun e he => hv e (by simp only [List.mem_append, List.mem_cons] at he ⊢; tauto)) hg.right_of_append
      (fun e he => hend e (by simp only [List.mem_append, List.mem_cons] at he ⊢; tauto)) ⟨hp1, hp2⟩ d hd
    order

theorem cutAll_none {q : Q} {l : List (K × V)} (h : ∀ e ∈ l, ¬ Overlap e.1 q) : CutAll q l l [] := by
  induction l with
  | nil => exact .nil
  | cons e l ih =>
    have he := h e (by simp)
    exact .cons (left := [e]) (returned := []) ⟨Or.inl ⟨fun p hp => he ⟨p, hp.1, hp.2⟩, rfl⟩, fun _ => rfl, fun ho => absurd ho he⟩
      (ih fun d hd => h d (by simp [hd]))

/-- `cut` finds nothing only if there is nothing -/
theorem cut_found {l : List (K × V)} (hv : ∀ e ∈ l, Valid e.1) (hg : l.IsChain fun a b => stop a.1 = start b.1) {q : Q} (hq : Valid q)
    (h : CutMisses l q) : ∀ e ∈ l, ¬ Overlap e.1 q := by
  obtain ⟨⟨d, hd, p, hp, hpq⟩, hmiss⟩ := h
  have hq' := valid_iff.1 hq
  have hpq := hpq (start q) ⟨le_refl _, hq'⟩
  have hmiss' : ∀ e ∈ l, start e.1 < start q → stop e.1 < start q := by
    intro e he hs
    by_contra hn
    have he' := valid_iff.1 (hv e he)
    exact hmiss e he ⟨start e.1, ⟨le_refl _, he'⟩, fun x hx => lt_of_lt_of_le hs hx.1⟩ ⟨start q, ⟨hs.le, not_lt.1 hn⟩, ⟨le_refl _, hq'⟩⟩
  have key : ∀ (t : List (K × V)) (a : K × V), (a :: t).IsChain (fun a b => stop a.1 = start b.1) →
      (∀ e ∈ a :: t, start e.1 < start q → stop e.1 < start q) → start a.1 < start q → ∀ b ∈ a :: t, start b.1 < start q := by
    intro t
    induction t with
    | nil => intro a _ _ h3 b hb; simp only [List.mem_singleton] at hb; subst hb; exact h3
    | cons c t ih =>
      intro a h1 h2 h3 b hb
      rcases List.mem_cons.1 hb with rfl | hb
      · exact h3
      · obtain ⟨g1, g2⟩ := List.isChain_cons_cons.1 h1
        exact ih c g2 (fun e he => h2 e (by simp only [List.mem_cons] at he ⊢; tauto)) (g1 ▸ h2 a (by simp) h3) b hb
  have hall : ∀ e ∈ l, start e.1 < start q := by
    obtain ⟨l1, l2, rfl⟩ := List.append_of_mem hd
    obtain ⟨hp1, hp2⟩ := hp
    intro e he
    rcases List.mem_append.1 he with he' | he'
    · have := (List.pairwise_append.1 (pairwise_of_chain hv hg)).2.2 e he' d (by simp)
      have := valid_iff.1 (hv e he)
      order
    · exact key l2 d hg.right_of_append (fun e he => hmiss' e (by simp only [List.mem_append, List.mem_cons] at he ⊢; tauto))
        (lt_of_le_of_lt hp1 hpq) e he'
  intro e he ⟨x, hx, hxq⟩
  exact absurd (lt_of_le_of_lt hx.2 (hmiss' e he (hall e he))) (not_lt.2 hxq.1)

theorem sameEntries_length {l l₂ : List (K × V)} (h : SameEntries l l₂) : l.length = l₂.length := List.Forall₂.length_eq h
end Timeline
open Timeline

/-- **C129**: entries each of which starts at or after the end of the one before it - zero-length ones and ones that share an end point
included - are all taken by `insert_strict_back` in that order, and the map then is the sequence of these entries. -/
theorem C129_append (l : List ((K × V) × Nat)) (hv : ∀ e ∈ l, Valid e.1.1)
    (hs : (l.map Prod.fst).Pairwise fun a b => AtOrBefore a.1 b.1) :
    outputs (appends l) = l.map (fun _ => .ok (.strict (.ok ()))) ∧ SameEntries (after (appends l)).iter (l.map Prod.fst) ∧
      (after (appends l)).length = l.length := by
  have hv' : ∀ e ∈ l.map Prod.fst, Valid e.1 := by
    intro e he; obtain ⟨d, hd, rfl⟩ := List.mem_map.1 he; exact hv d hd
  obtain ⟨s, h1, h2, h3, -⟩ := C62_refines (appends l)
  obtain ⟨e1, e2, e3⟩ := append_run l (s := ⟨[], 0, false⟩) rfl (by simpa using hv') (by
    simp only [List.nil_append]
    refine hs.imp_of_mem fun {a b} ha hb h => h _ _ ⟨valid_iff.1 (hv' a ha), le_refl _⟩ ⟨le_refl _, valid_iff.1 (hv' b hb)⟩) h1
  simp only [List.nil_append] at e2
  have := sameEntries_length e2
  rw [List.length_map] at this
  exact ⟨e1, h2 ▸ e2, by rw [h3, e3, this]; rfl⟩

/-- **C129**: segments each of which starts where the one before it ended make a gapless map with these segments -/
theorem C129_timeline (l : List ((K × V) × Nat)) (hv : ∀ e ∈ l, Valid e.1.1) (hg : Gapless (l.map Prod.fst)) :
    outputs (appends l) = l.map (fun _ => .ok (.strict (.ok ()))) ∧ SameEntries (after (appends l)).iter (l.map Prod.fst) ∧
      (after (appends l)).length = l.length ∧ Gapless (after (appends l)).iter := by
  have hv' : ∀ e ∈ l.map Prod.fst, Valid e.1 := by
    intro e he; obtain ⟨d, hd, rfl⟩ := List.mem_map.1 he; exact hv d hd
  have hp := pairwise_of_chain hv' ((gapless_iff hv').1 hg)
  obtain ⟨h1, h2, h3⟩ := C129_append l hv (hp.imp fun h p q hp hq => hp.2.trans (h.trans hq.1))
  exact ⟨h1, h2, h3, gapless_congr h2 hg⟩

/-- **C129**: in a gapless map, however it came about, `get_last_value_at_point` is what it is documented to be at every point, the
shared ends included: the value of the last entry that contains the point, and `None` only where no entry is (see C40). -/
theorem C129_lookup (ops : List (ZOp I K V)) (hg : Gapless (after ops).iter) (p : I) :
    ((after ops).getLastValueAtPoint p = none ↔ ∀ e ∈ (after ops).iter, ¬ Mem p e.1) ∧
    ∀ v, (after ops).getLastValueAtPoint p = some v ↔
      ∃ l1 k l2, (after ops).iter = l1 ++ (k, v) :: l2 ∧ Mem p k ∧ ∀ e ∈ l2, ¬ Mem p e.1 := by
  have hv := (good_after ops).inv.flat.1
  have hv : ∀ e ∈ (after ops).iter, Valid e.1 := fun e he => valid_iff.2 (hv e he)
  obtain ⟨h1, h2⟩ := C63_get_last_value_exact ops p
  have hf := found hv ((gapless_iff hv).1 hg) p
  refine ⟨h1.trans hf, fun v => ⟨fun h => ((h2 v).1 h).2, fun h => (h2 v).2 ⟨fun hn => ?_, h⟩⟩⟩
  obtain ⟨l1, k, l2, e1, e2, -⟩ := h
  exact hf.1 hn (k, v) (by rw [e1]; simp) e2

/-- **C129**: in a gapless map, the lookup finds a value at every point from the first to the last -/
theorem C129_no_holes (ops : List (ZOp I K V)) (hg : Gapless (after ops).iter) {a b : K × V} (ha : a ∈ (after ops).iter)
    (hb : b ∈ (after ops).iter) {x p y : I} (hx : Mem x a.1) (hy : Mem y b.1) (hxp : x ≤ p) (hpy : p ≤ y) :
    ∃ v, (after ops).getLastValueAtPoint p = some v := by
  rw [← Option.ne_none_iff_exists']
  intro hn
  rw [(C129_lookup ops hg p).1] at hn
  have hv : ∀ e ∈ (after ops).iter, Valid e.1 := fun e he => valid_iff.2 ((good_after ops).inv.flat.1 e he)
  have hc := (gapless_iff hv).1 hg
  -- before `p` or after it, and never across
  have key : ∀ (t : List (K × V)) (a : K × V), (a :: t).IsChain (fun a b => stop a.1 = start b.1) →
      (∀ e ∈ a :: t, ¬ Mem p e.1) → stop a.1 < p → ∀ b ∈ a :: t, stop b.1 < p := by
    intro t
    induction t with
    | nil => intro a _ _ h3 b hb; simp only [List.mem_singleton] at hb; subst hb; exact h3
    | cons c t ih =>
      intro a h1 h2 h3 b hb
      rcases List.mem_cons.1 hb with rfl | hb
      · exact h3
      · obtain ⟨g1, g2⟩ := List.isChain_cons_cons.1 h1
        refine ih c g2 (fun e he => h2 e (by simp only [List.mem_cons] at he ⊢; tauto)) ?_ b hb
        by_contra hn
        exact h2 c (by simp) ⟨by order, by order⟩
  have hsa : stop a.1 < p := by
    by_contra h; exact hn a ha ⟨hx.1.trans hxp, not_lt.1 h⟩
  obtain ⟨l1, l2, e⟩ := List.append_of_mem ha
  rw [e] at hb hc
  rcases List.mem_append.1 hb with hb' | hb'
  · have := (List.pairwise_append.1 (pairwise_of_chain (fun d hd => hv d (e ▸ hd)) hc)).2.2 b hb' a (by simp)
    obtain ⟨h1, h2⟩ := hx
    obtain ⟨h3, h4⟩ := hy
    order
  · have := key l2 a hc.right_of_append (fun d hd => hn d (by rw [e]; simp only [List.mem_append]; tauto)) hsa b hb'
    obtain ⟨h3, h4⟩ := hy
    order

/-- **C129**: in a gapless map, `cut` cuts the interval out of every entry, as documented (see C43) -/
theorem C129_cut (ops : List (ZOp I K V)) (hg : Gapless (after ops).iter) {q : Q} (hq : Valid q) :
    ∃ m' returned, (after ops).cut q = .ok (m', returned) ∧ CutAll q (after ops).iter m'.iter returned := by
  have hv : ∀ e ∈ (after ops).iter, Valid e.1 := fun e he => valid_iff.2 ((good_after ops).inv.flat.1 e he)
  obtain ⟨h1, h2⟩ := C65_cut_exact ops hq
  by_cases hm : CutMisses (after ops).iter q
  · exact ⟨_, _, h1 hm, cutAll_none (cut_found hv ((gapless_iff hv).1 hg) hq hm)⟩
  · obtain ⟨m', r, e1, e2, -⟩ := h2 hm
    exact ⟨m', r, e1, e2⟩

/-- **C129**: a gapless map is a stack of segments: removing at the end of the last segment gives its value, and leaves the others -/
theorem C129_pop (ops : List (ZOp I K V)) (hg : Gapless (after ops).iter) {l : List (K × V)} {k : K} {v : V}
    (hl : (after ops).iter = l ++ [(k, v)]) {p : I} (hp : Mem p k) (hlast : ∀ x, Mem x k → x ≤ p) :
    ∃ m', (after ops).removeLastValueAtPoint p = .ok (m', some v) ∧ m'.iter = l ∧ Gapless m'.iter := by
  have hv : ∀ e ∈ (after ops).iter, Valid e.1 := fun e he => valid_iff.2 ((good_after ops).inv.flat.1 e he)
  have hmem : (k, v) ∈ (after ops).iter := by rw [hl]; simp
  rcases lookup_exact (good_after ops).inv p with ⟨h1, -⟩ | ⟨-, w, m', l1, k', l2, -, h2, h3, h4, h5, h6, -⟩
  · exact absurd hp ((found hv ((gapless_iff hv).1 hg) p).1 h1 _ hmem)
  · have : l2 = [] := by
      rcases List.eq_nil_or_concat l2 with h | ⟨l2', y, rfl⟩
      · exact h
      · have : y = (k, v) := by
          have := congrArg List.getLast? (hl.symm.trans h3)
          simpa [List.getLast?_append, List.getLast?_cons] using this.symm
        exact absurd hp (by have := h6 y (by simp); simpa [‹y = (k, v)›] using this)
    subst this
    rw [h3] at hl
    obtain ⟨rfl, hkv⟩ := List.append_inj' hl rfl
    simp only [List.cons.injEq, Prod.mk.injEq, and_true] at hkv
    obtain ⟨rfl, rfl⟩ := hkv
    refine ⟨m', h2, by simpa using h4, ?_⟩
    rw [h4, List.append_nil]
    rw [h3] at hg
    exact List.IsChain.left_of_append hg
end Nodit
