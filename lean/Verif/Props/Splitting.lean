import Verif.Props.Agreement
import Verif.Props.AgreementGqdit
import Verif.Props.AgreementZosdit
/-!
# C112: a query in two parts

If two intervals together make up a third (they may share points), then asking for, removing from or changing the whole is asking for,
removing from or changing the parts.
-/
set_option linter.unusedSectionVars false
namespace Nodit
open Spec PointType NoditMap

variable {I K Q Q₁ Q₂ V D : Type} [PointType I] [IntervalType I K] [IntervalType I Q] [IntervalType I Q₁] [IntervalType I Q₂]
  [LawfulPoint I] [LawfulInterval I K] [DecidableEq D]

/-- `q₁` and `q₂` contain points and have together exactly the points of `q` -/
structure TwoParts (q : Q) (q₁ : Q₁) (q₂ : Q₂) : Prop where
  left : Valid q₁
  right : Valid q₂
  union : ∀ p : I, Mem p q ↔ Mem p q₁ ∨ Mem p q₂

namespace TwoParts
variable {q : Q} {q₁ : Q₁} {q₂ : Q₂}
theorem valid (h : TwoParts q q₁ q₂) : Valid q := h.left.imp fun p hp => (h.union p).2 (Or.inl hp)
theorem overlap (h : TwoParts q q₁ q₂) (k : K) : Overlap k q ↔ Overlap k q₁ ∨ Overlap k q₂ := by
  constructor
  · rintro ⟨p, hp, hpq⟩
    rcases (h.union p).1 hpq with h' | h'
    · exact Or.inl ⟨p, hp, h'⟩
    · exact Or.inr ⟨p, hp, h'⟩
  · rintro (⟨p, hp, h'⟩ | ⟨p, hp, h'⟩)
    · exact ⟨p, hp, (h.union p).2 (Or.inl h')⟩
    · exact ⟨p, hp, (h.union p).2 (Or.inr h')⟩
end TwoParts

/-- **C112**: `overlaps` and `contains_interval` of the whole are the disjunction and conjunction of those of the parts; the gaps of the
whole are the gaps of the parts. -/
theorem C112_map_questions {m : NoditMap K V} (h : WF m.iter) {q : Q} {q₁ : Q₁} {q₂ : Q₂} (hq : TwoParts q q₁ q₂) :
    (∃ b₁ b₂, m.overlaps q₁ = .ok b₁ ∧ m.overlaps q₂ = .ok b₂ ∧ m.overlaps q = .ok (b₁ || b₂)) ∧
    (∃ b₁ b₂, m.containsInterval q₁ = .ok b₁ ∧ m.containsInterval q₂ = .ok b₂ ∧ m.containsInterval q = .ok (b₁ && b₂)) ∧
    (∃ l l₁ l₂, m.gapsUntrimmed q = .ok l ∧ m.gapsUntrimmed q₁ = .ok l₁ ∧ m.gapsUntrimmed q₂ = .ok l₂ ∧ ∀ k, k ∈ l ↔ k ∈ l₁ ∨ k ∈ l₂) ∧
    (∃ l l₁ l₂, m.gapsTrimmed q = .ok l ∧ m.gapsTrimmed q₁ = .ok l₁ ∧ m.gapsTrimmed q₂ = .ok l₂ ∧
      ∀ p : I, (∃ k ∈ l, Mem p k) ↔ (∃ k ∈ l₁, Mem p k) ∨ ∃ k ∈ l₂, Mem p k) := by
  refine ⟨?_, ?_, ?_, ?_⟩
  · obtain ⟨b, o1, o2⟩ := spec_overlaps h hq.valid
    obtain ⟨b₁, o3, o4⟩ := spec_overlaps h hq.left
    obtain ⟨b₂, o5, o6⟩ := spec_overlaps h hq.right
    refine ⟨b₁, b₂, o3, o5, ?_⟩
    rw [o1, Except.ok.injEq, Bool.eq_iff_iff, Bool.or_eq_true, o2, o4, o6]
    simp only [hq.overlap, and_or_left, exists_or]
  · obtain ⟨b, o1, o2⟩ := C16_contains_interval h q hq.valid
    obtain ⟨b₁, o3, o4⟩ := C16_contains_interval h q₁ hq.left
    obtain ⟨b₂, o5, o6⟩ := C16_contains_interval h q₂ hq.right
    refine ⟨b₁, b₂, o3, o5, ?_⟩
    rw [o1, Except.ok.injEq, Bool.eq_iff_iff, Bool.and_eq_true, o2, o4, o6]
    simp only [hq.union, or_imp, forall_and]
  · obtain ⟨l, g1, -, g2⟩ := spec_gapsUntrimmed h hq.valid
    obtain ⟨l₁, g3, -, g4⟩ := spec_gapsUntrimmed h hq.left
    obtain ⟨l₂, g5, -, g6⟩ := spec_gapsUntrimmed h hq.right
    refine ⟨l, l₁, l₂, g1, g3, g5, fun k => ?_⟩
    rw [g2, g4, g6]
    simp only [hq.overlap, and_or_left, exists_or]
  · obtain ⟨l, g1, -, -, g2⟩ := C15_gaps_trimmed h q hq.valid
    obtain ⟨l₁, g3, -, -, g4⟩ := C15_gaps_trimmed h q₁ hq.left
    obtain ⟨l₂, g5, -, -, g6⟩ := C15_gaps_trimmed h q₂ hq.right
    refine ⟨l, l₁, l₂, g1, g3, g5, fun p => ?_⟩
    rw [g2, g4, g6, hq.union, or_and_right]

theorem filter_ovl_split {l : List (K × V)} (h : WF l) {q : Q} {q₁ : Q₁} {q₂ : Q₂} (hq : TwoParts q q₁ q₂) (hb : start q₁ ≤ start q₂) :
    l.filter (ovl q) = l.filter (ovl q₁) ++ (l.filter (fun e => !ovl q₁ e)).filter (ovl q₂) := by
  have hc := wf_iff_chain.1 h
  have v1 := valid_iff.1 hq.left
  have v2 := valid_iff.1 hq.right
  have ho : ∀ e ∈ l, ovl q e = true ↔ ovl q₁ e = true ∨ ovl q₂ e = true := fun e he => by
    have he' := valid_iff.1 (h.1 e he)
    rw [ovl_iff (valid_iff.1 hq.valid) he', ovl_iff v1 he', ovl_iff v2 he']; exact hq.overlap e.1
  refine Chain.ext (hc.filter _) ?_ fun e => ?_
  · constructor
    · intro e he
      rcases List.mem_append.1 he with he | he
      · exact hc.1 e (List.mem_filter.1 he).1
      · exact hc.1 e (List.mem_filter.1 (List.mem_filter.1 he).1).1
    · refine List.pairwise_append.2 ⟨hc.2.filter _, (hc.2.filter _).filter _, fun a ha b hb' => ?_⟩
      obtain ⟨a1, a2⟩ := List.mem_filter.1 ha
      obtain ⟨b12, b3⟩ := List.mem_filter.1 hb'
      obtain ⟨b1, b2⟩ := List.mem_filter.1 b12
      have ha' := hc.1 a a1
      have hb'' := hc.1 b b1
      by_contra hlt
      have hba : stop b.1 < start a.1 := by
        rcases eq_or_ne a b with rfl | hne
        · rw [a2] at b2; simp at b2
        · rcases List.pairwise_iff_getElem.1 hc.2 |> fun hp => (hp : _) with hp
          obtain ⟨i, hi, rfl⟩ := List.getElem_of_mem a1
          obtain ⟨j, hj, rfl⟩ := List.getElem_of_mem b1
          rcases lt_trichotomy i j with hij | rfl | hij
          · exact absurd (hp i j hi hj hij) hlt
          · exact absurd rfl hne
          · exact hp j i hj hi hij
      simp only [ovl, decide_eq_true_eq, Bool.not_eq_true', decide_eq_false_iff_not] at a2 b2 b3
      exact b2 ⟨by have := a2.1; order, by have := b3.2; order⟩
  · simp only [List.mem_append, List.mem_filter, Bool.not_eq_true']
    constructor
    · rintro ⟨he, hoe⟩
      by_cases h1 : ovl q₁ e = true
      · exact Or.inl ⟨he, h1⟩
      · exact Or.inr ⟨⟨he, by simpa using h1⟩, ((ho e he).1 hoe).resolve_left h1⟩
    · rintro (⟨he, h1⟩ | ⟨⟨he, -⟩, h2⟩)
      · exact ⟨he, (ho e he).2 (Or.inl h1)⟩
      · exact ⟨he, (ho e he).2 (Or.inr h2)⟩

/-- **C112**: removing what overlaps the whole is removing what overlaps the first part and then what overlaps the second: the same map
is left and the same entries come out in the same order (`q₁` not starting after `q₂`); and `overlapping` of the whole lists what it lists
for the first part, followed by what it lists for the second after the first removal. -/
theorem C112_remove_in_two_steps {m : NoditMap K V} (h : WF m.iter) {q : Q} {q₁ : Q₁} {q₂ : Q₂} (hq : TwoParts q q₁ q₂)
    (hb : ∃ p : I, Mem p q₁ ∧ ∀ x, Mem x q₂ → p ≤ x) :
    ∃ m₁ m₂ l₁ l₂, m.removeOverlapping q₁ = .ok (m₁, l₁) ∧ m₁.removeOverlapping q₂ = .ok (m₂, l₂) ∧
      m.removeOverlapping q = .ok (m₂, l₁ ++ l₂) ∧
      m.overlapping q₁ = .ok l₁ ∧ m₁.overlapping q₂ = .ok l₂ ∧ m.overlapping q = .ok (l₁ ++ l₂) := by
  have hc := wf_iff_chain.1 h
  have v1 := valid_iff.1 hq.left
  have v2 := valid_iff.1 hq.right
  have v := valid_iff.1 hq.valid
  have hst : start q₁ ≤ start q₂ := by
    obtain ⟨p, hp, hx⟩ := hb
    exact le_trans hp.1 (hx _ ⟨le_refl _, v2⟩)
  have hs := filter_ovl_split h hq hst
  have e1 := NoditMap.removeOverlapping_ok hc v1
  have hc1 : Chain (m.inner.filter (fun e => !ovl q₁ e)) := hc.filter _
  have hc1' : WF (⟨m.inner.filter (fun e => !ovl q₁ e)⟩ : NoditMap K V).iter := wf_iff_chain.2 hc1
  have e2 := NoditMap.removeOverlapping_ok (m := ⟨m.inner.filter (fun e => !ovl q₁ e)⟩) hc1 v2
  refine ⟨_, _, _, _, e1, e2, ?_, overlapping_eq_filter h hq.left, overlapping_eq_filter hc1' hq.right, ?_⟩
  · rw [NoditMap.removeOverlapping_ok hc v]
    have hs' : m.inner.filter (ovl q) = m.inner.filter (ovl q₁) ++ (m.inner.filter (fun e => !ovl q₁ e)).filter (ovl q₂) := hs
    rw [hs']
    have : m.inner.filter (fun e => !ovl q e) = m.inner.filter (fun a => (!ovl q₂ a) && !ovl q₁ a) := by
      refine List.filter_congr fun e he => ?_
      have he' := valid_iff.1 (h.1 e he)
      have ho : ovl q e = true ↔ ovl q₁ e = true ∨ ovl q₂ e = true := by
        rw [ovl_iff v he', ovl_iff v1 he', ovl_iff v2 he']; exact hq.overlap e.1
      cases h1 : ovl q₁ e <;> cases h2 : ovl q₂ e <;> simp_all
    rw [this, ← List.filter_filter]
  · rw [overlapping_eq_filter h hq.valid, hs]; rfl

/-- **C112**: what cutting the whole hands back is, point by point, what cutting one part and then the other hands back. (That the map left
is the same is C55.) -/
theorem C112_cut_pieces {m m₁ m₂ m₃ : NoditMap K V} {o₁ o₂ o₃ : List (K × V)} (h : WF m.iter) {q : Q} {q₁ : Q₁} {q₂ : Q₂} (hq : TwoParts q q₁ q₂)
    (h₁ : m.cut q₁ = .ok (m₁, o₁)) (h₂ : m₁.cut q₂ = .ok (m₂, o₂)) (h₃ : m.cut q = .ok (m₃, o₃)) (p : I) (v : V) :
    (∃ e ∈ o₃, Mem p e.1 ∧ e.2 = v) ↔ (∃ e ∈ o₁, Mem p e.1 ∧ e.2 = v) ∨ ∃ e ∈ o₂, Mem p e.1 ∧ e.2 = v := by
  have w1 := cut_wf h hq.left h₁
  have a := (C08_cut_pointwise h q hq.valid h₃ p).2.2 v
  have b := C08_cut_pointwise h q₁ hq.left h₁ p
  have c := (C08_cut_pointwise w1 q₂ hq.right h₂ p).2.2 v
  rw [a, b.2.2 v, c, hq.union]
  have hb : (∃ e ∈ m₁.iter, Mem p e.1 ∧ e.2 = v) ↔ ¬ Mem p q₁ ∧ ∃ e ∈ m.iter, Mem p e.1 ∧ e.2 = v := by
    obtain ⟨-, ⟨r, r1, r2⟩, -⟩ := C03_point_lookup h p
    obtain ⟨-, ⟨r', r1', r2'⟩, -⟩ := C03_point_lookup w1 p
    rw [← r2, ← r2']
    by_cases hp : Mem p q₁
    · have := b.1 hp
      rw [r1', Except.ok.injEq] at this
      simp [hp, this]
    · have := b.2.1 hp
      rw [r1, r1', Except.ok.injEq] at this
      simp [hp, this]
  constructor
  · rintro ⟨h1 | h1, h2⟩
    · exact Or.inl ⟨h1, h2⟩
    · by_cases hp : Mem p q₁
      · exact Or.inl ⟨hp, h2⟩
      · exact Or.inr ⟨h1, hb.2 ⟨hp, h2⟩⟩
  · rintro (⟨h1, h2⟩ | ⟨h1, h2⟩)
    · exact ⟨Or.inl h1, h2⟩
    · exact ⟨Or.inr h1, (hb.1 h2).2⟩

/-- **C112**: changing the values at the whole through `overlapping_mut` is changing them at one part and then at the other, if no entry
reaches into both parts or if making the change twice is making it once. -/
theorem C112_mut_in_two_steps {m : NoditMap K V} (h : WF m.iter) {q : Q} {q₁ : Q₁} {q₂ : Q₂} (hq : TwoParts q q₁ q₂) (f : K → V → V)
    (hf : (∀ e ∈ m.iter, ¬ (Overlap e.1 q₁ ∧ Overlap e.1 q₂)) ∨ ∀ k v, f k (f k v) = f k v) :
    ∃ m₁ m₂, m.overlappingMut q₁ f = .ok m₁ ∧ m₁.overlappingMut q₂ f = .ok m₂ ∧ m.overlappingMut q f = .ok m₂ := by
  have hc := wf_iff_chain.1 h
  have v1 := valid_iff.1 hq.left
  have v2 := valid_iff.1 hq.right
  have v := valid_iff.1 hq.valid
  refine ⟨_, _, NoditMap.overlappingMut_ok hc v1 f, NoditMap.overlappingMut_ok (m := ⟨_⟩) (hc.map_value _) v2 f, ?_⟩
  rw [NoditMap.overlappingMut_ok hc v f]
  congr 2
  rw [List.map_map]
  refine List.map_congr_left fun e he => ?_
  have he' := valid_iff.1 (h.1 e he)
  have ho : ovl q e = true ↔ ovl q₁ e = true ∨ ovl q₂ e = true := by
    rw [ovl_iff v he', ovl_iff v1 he', ovl_iff v2 he']; exact hq.overlap e.1
  have hs : ∀ w : V, ovl q₂ (e.1, w) = ovl q₂ e := fun w => rfl
  have hb : (ovl q₁ e = true ∧ ovl q₂ e = true) → ∀ w, f e.1 (f e.1 w) = f e.1 w := by
    rintro ⟨a, b⟩ w
    rcases hf with hf | hf
    · exact absurd ⟨(ovl_iff v1 he').1 a, (ovl_iff v2 he').1 b⟩ (hf e he)
    · exact hf e.1 w
  simp only [Function.comp_apply, hs]
  cases h1 : ovl q₁ e <;> cases h2 : ovl q₂ e <;> simp_all

/-- **C112** for `NoditSet`. -/
theorem C112_set {s : NoditSet K} (h : Ascending s.iter) {q : Q} {q₁ : Q₁} {q₂ : Q₂} (hq : TwoParts q q₁ q₂) :
    (∃ b₁ b₂, s.overlaps q₁ = .ok b₁ ∧ s.overlaps q₂ = .ok b₂ ∧ s.overlaps q = .ok (b₁ || b₂)) ∧
    (∃ b₁ b₂, s.containsInterval q₁ = .ok b₁ ∧ s.containsInterval q₂ = .ok b₂ ∧ s.containsInterval q = .ok (b₁ && b₂)) ∧
    (∃ l l₁ l₂, s.gapsUntrimmed q = .ok l ∧ s.gapsUntrimmed q₁ = .ok l₁ ∧ s.gapsUntrimmed q₂ = .ok l₂ ∧ ∀ k, k ∈ l ↔ k ∈ l₁ ∨ k ∈ l₂) ∧
    (∃ l l₁ l₂, s.gapsTrimmed q = .ok l ∧ s.gapsTrimmed q₁ = .ok l₁ ∧ s.gapsTrimmed q₂ = .ok l₂ ∧
      ∀ p : I, (∃ k ∈ l, Mem p k) ↔ (∃ k ∈ l₁, Mem p k) ∨ ∃ k ∈ l₂, Mem p k) ∧
    ((∃ p : I, Mem p q₁ ∧ ∀ x, Mem x q₂ → p ≤ x) → ∃ s₁ s₂ l₁ l₂, s.removeOverlapping q₁ = .ok (s₁, l₁) ∧
      s₁.removeOverlapping q₂ = .ok (s₂, l₂) ∧ s.removeOverlapping q = .ok (s₂, l₁ ++ l₂) ∧ s.overlapping q = .ok (l₁ ++ l₂)) ∧
    ∃ s₁ s₂ o o₁ o₂, s.cut q₁ = .ok (s₁, o₁) ∧ s₁.cut q₂ = .ok (s₂, o₂) ∧ s.cut q = .ok (s₂, o) ∧
      ∀ p : I, (∃ k ∈ o, Mem p k) ↔ (∃ k ∈ o₁, Mem p k) ∨ ∃ k ∈ o₂, Mem p k := by
  have hw := NoditSet.wf_iff.2 h
  obtain ⟨a1, a2, a3, a4⟩ := C112_map_questions hw hq
  refine ⟨a1, a2, a3, a4, fun hb => ?_, ?_⟩
  · obtain ⟨m₁, m₂, l₁, l₂, b1, b2, b3, -, -, b4⟩ := C112_remove_in_two_steps hw hq hb
    refine ⟨⟨m₁⟩, ⟨m₂⟩, l₁.map Prod.fst, l₂.map Prod.fst, ?_, ?_, ?_, ?_⟩
    · simp only [NoditSet.removeOverlapping, b1, bind, Except.bind, pure, Except.pure]
    · simp only [NoditSet.removeOverlapping, b2, bind, Except.bind, pure, Except.pure]
    · simp only [NoditSet.removeOverlapping, b3, bind, Except.bind, pure, Except.pure, List.map_append]
    · simp only [NoditSet.overlapping, b4, bind, Except.bind, pure, Except.pure, List.map_append]
  · obtain ⟨m₁, o₁, b1, w1, -⟩ := spec_cut hw hq.left
    obtain ⟨m₂, o₂, b2, w2, -⟩ := spec_cut w1 hq.right
    obtain ⟨m₃, o₃, b3, w3, -⟩ := spec_cut hw hq.valid
    obtain rfl := C55_cut_union hw hq.union b1 b2 b3
    refine ⟨⟨m₁⟩, ⟨m₂⟩, o₃.map Prod.fst, o₁.map Prod.fst, o₂.map Prod.fst, ?_, ?_, ?_, fun p => ?_⟩
    · simp only [NoditSet.cut, b1, bind, Except.bind, pure, Except.pure]
    · simp only [NoditSet.cut, b2, bind, Except.bind, pure, Except.pure]
    · simp only [NoditSet.cut, b3, bind, Except.bind, pure, Except.pure]
    · simpa using C112_cut_pieces hw hq b1 b2 b3 p ()

/-- **C112** for `ZosditMap`: `overlapping` of the whole lists what it lists for one of the parts, and `is_zero_overlap` of the whole implies
that of both parts. -/
theorem C112_zosdit (ops : List (ZOp I K V)) {q : Q} {q₁ : Q₁} {q₂ : Q₂} (hq : TwoParts q q₁ q₂) :
    (∃ l l₁ l₂, (ZosditMap.after ops).overlapping q = .ok l ∧ (ZosditMap.after ops).overlapping q₁ = .ok l₁ ∧
      (ZosditMap.after ops).overlapping q₂ = .ok l₂ ∧ l₁ <:+: l ∧ l₂ <:+: l ∧ ∀ e, e ∈ l ↔ e ∈ l₁ ∨ e ∈ l₂) ∧
    ((ZosditMap.after ops).isZeroOverlap q = .ok true →
      (ZosditMap.after ops).isZeroOverlap q₁ = .ok true ∧ (ZosditMap.after ops).isZeroOverlap q₂ = .ok true) := by
  classical
  obtain ⟨⟨l₁, l, a1, a2, a3, -⟩, a4⟩ := C110_wider_query ops hq.left (q' := q) (fun p hp => (hq.union p).2 (Or.inl hp))
  obtain ⟨⟨l₂, l', b1, b2, b3, -⟩, b4⟩ := C110_wider_query ops hq.right (q' := q) (fun p hp => (hq.union p).2 (Or.inr hp))
  rw [a2, Except.ok.injEq] at b2; subst b2
  refine ⟨⟨l, l₁, l₂, a2, a1, b1, a3, b3, fun e => ?_⟩, fun h => ⟨a4 h, b4 h⟩⟩
  rw [C44_overlapping ops hq.left, Except.ok.injEq] at a1
  rw [C44_overlapping ops hq.right, Except.ok.injEq] at b1
  rw [C44_overlapping ops hq.valid, Except.ok.injEq] at a2
  rw [← a1, ← a2, ← b1]
  simp only [List.mem_filter, decide_eq_true_eq, hq.overlap, and_or_left]

/-- **C112** for `Gqdit`: the gaps of the whole are the gaps of the parts, and changing the whole is changing the parts one after the other. -/
theorem C112_gqdit {h : GqHist I K D} {g : Gqdit K D} (hg : Gqdit.eval h = .ok g) (d : D) (ids : Finset D) {q : Q} {q₁ : Q₁} {q₂ : Q₂}
    (hq : TwoParts q q₁ q₂) {k k₁ k₂ : K} (hk : TwoParts k k₁ k₂) :
    (∃ l l₁ l₂, g.gapsNoIdentifier q = .ok l ∧ g.gapsNoIdentifier q₁ = .ok l₁ ∧ g.gapsNoIdentifier q₂ = .ok l₂ ∧ ∀ k, k ∈ l ↔ k ∈ l₁ ∨ k ∈ l₂) ∧
    (∃ l l₁ l₂, g.gapsWithIdentifier d q = .ok l ∧ g.gapsWithIdentifier d q₁ = .ok l₁ ∧ g.gapsWithIdentifier d q₂ = .ok l₂ ∧
      ∀ k, k ∈ l ↔ k ∈ l₁ ∨ k ∈ l₂) ∧
    (∃ g₁ g₂, g.cutAllIdentifiers q₁ = .ok g₁ ∧ g₁.cutAllIdentifiers q₂ = .ok g₂ ∧ g.cutAllIdentifiers q = .ok g₂) ∧
    (∃ g₁ g₂, g.cutWithIdentifiers ids q₁ = .ok g₁ ∧ g₁.cutWithIdentifiers ids q₂ = .ok g₂ ∧ g.cutWithIdentifiers ids q = .ok g₂) ∧
    (∃ g₁ g₂, g.insert ids k₁ = .ok g₁ ∧ g₁.insert ids k₂ = .ok g₂ ∧ g.insert ids k = .ok g₂) := by
  classical
  have hr := rep_of_eval hg
  refine ⟨?_, ?_, ?_, ?_, ?_⟩
  · obtain ⟨l, a1, a2⟩ := gapsNo_runs hr hq.valid
    obtain ⟨l₁, b1, b2⟩ := gapsNo_runs hr hq.left
    obtain ⟨l₂, c1, c2⟩ := gapsNo_runs hr hq.right
    refine ⟨l, l₁, l₂, a1, b1, c1, fun k => ?_⟩
    rw [(b2.narrower a2 fun p hp => (hq.union p).2 (Or.inl hp)).1, (c2.narrower a2 fun p hp => (hq.union p).2 (Or.inr hp)).1, ← and_or_left,
      ← hq.overlap, iff_self_and]
    intro hk
    obtain ⟨i, rfl, -, p, hp, hpq⟩ := (a2.lists.2 k).1 hk
    exact ⟨p, mem_ofInterval.2 hp, hpq⟩
  · obtain ⟨l, a1, a2⟩ := gapsWith_runs hr d hq.valid
    obtain ⟨l₁, b1, b2⟩ := gapsWith_runs hr d hq.left
    obtain ⟨l₂, c1, c2⟩ := gapsWith_runs hr d hq.right
    refine ⟨l, l₁, l₂, a1, b1, c1, fun k => ?_⟩
    rw [(b2.narrower a2 fun p hp => (hq.union p).2 (Or.inl hp)).1, (c2.narrower a2 fun p hp => (hq.union p).2 (Or.inr hp)).1, ← and_or_left,
      ← hq.overlap, iff_self_and]
    intro hk
    obtain ⟨i, rfl, -, p, hp, hpq⟩ := (a2.lists.2 k).1 hk
    exact ⟨p, mem_ofInterval.2 hp, hpq⟩
  · obtain ⟨g₁, a1, a2⟩ := hr.cutAll hq.left
    obtain ⟨g₂, b1, b2⟩ := a2.cutAll hq.right
    obtain ⟨g₃, c1, c2⟩ := hr.cutAll hq.valid
    refine ⟨g₁, g₂, a1, b1, ?_⟩
    rw [c1, (eq_self b2 c2).2 fun p => ?_]
    by_cases h1 : Mem p q₁ <;> by_cases h2 : Mem p q₂ <;> simp [hq.union, h1, h2]
  · obtain ⟨g₁, a1, a2⟩ := hr.cutWith hq.left ids
    obtain ⟨g₂, b1, b2⟩ := a2.cutWith hq.right ids
    obtain ⟨g₃, c1, c2⟩ := hr.cutWith hq.valid ids
    refine ⟨g₁, g₂, a1, b1, ?_⟩
    rw [c1, (eq_self b2 c2).2 fun p => ?_]
    by_cases h1 : Mem p q₁ <;> by_cases h2 : Mem p q₂ <;> simp [hq.union, h1, h2]
  · obtain ⟨g₁, a1, a2⟩ := hr.insert hk.left ids
    obtain ⟨g₂, b1, b2⟩ := a2.insert hk.right ids
    obtain ⟨g₃, c1, c2⟩ := hr.insert hk.valid ids
    refine ⟨g₁, g₂, a1, b1, ?_⟩
    rw [c1, (eq_self b2 c2).2 fun p => ?_]
    by_cases h1 : Mem p k₁ <;> by_cases h2 : Mem p k₂ <;> simp [hk.union, h1, h2]

/-! ### Concrete cases -/

/-- the hypotheses are met: `2..=18` is made up of `2..=11` and `9..=18`, on the containers of the other files -/
example : TwoParts (Demo.iv 2 18) (Demo.iv 2 11) (Demo.iv 9 18) ∧ (∃ p : Demo.U8, Mem p (Demo.iv 2 11) ∧ ∀ x, Mem x (Demo.iv 9 18) → p ≤ x) ∧
    WF Demo.m.iter ∧ Demo.m.overlaps (Demo.iv 2 18) = .ok true ∧ Gqdit.eval Demo.gh = .ok Demo.gq := by
  refine ⟨⟨valid_iff.2 (by decide), valid_iff.2 (by decide), fun p => ?_⟩, ⟨Demo.u8 2, ⟨by decide, by decide⟩, fun x hx => ?_⟩,
    C01_invariant Demo.ops, by decide, Demo.gh_eval⟩
  · have h1 : (Demo.u8 9) ≤ Demo.u8 11 := by decide
    have h2 : (Demo.u8 2) ≤ Demo.u8 9 := by decide
    have h3 : (Demo.u8 11) ≤ Demo.u8 18 := by decide
    simp only [Mem, start, stop, Demo.iv]
    constructor
    · rintro ⟨a, b⟩
      rcases le_total p (Demo.u8 11) with h | h
      · exact Or.inl ⟨a, h⟩
      · exact Or.inr ⟨le_trans h1 h, b⟩
    · rintro (⟨a, b⟩ | ⟨a, b⟩)
      · exact ⟨a, le_trans b h3⟩
      · exact ⟨le_trans h2 a, b⟩
  · exact le_trans (by decide : (Demo.u8 2) ≤ Demo.u8 9) hx.1
end Nodit
