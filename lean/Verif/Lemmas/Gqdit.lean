import Verif.Gqdit
import Verif.Props.Pointwise
/-!
# `Gqdit`: the invariant, and the updates
-/
set_option linter.unusedSectionVars false
namespace Nodit
open Spec PointType NoditMap

variable {I K Q V D : Type} [PointType I] [IntervalType I K] [IntervalType I Q]
  [LawfulPoint I] [LawfulInterval I K]

/-- no two entries touch and have the same value -/
def NoMerge (l : List (K × V)) : Prop := ∀ e ∈ l, ∀ d ∈ l, Touch e.1 d.1 → e.2 ≠ d.2

/-- every key is a converted interval -/
def Keys (l : List (K × V)) : Prop := ∀ e ∈ l, ∃ i : Interval I, e.1 = ofInterval i

/-- the value at a point -/
def At (l : List (K × V)) (p : I) (v : V) : Prop := ∃ e ∈ l, Mem p e.1 ∧ e.2 = v

theorem touch_comm' {a : K} {b : Q} : Touch a b ↔ Touch b a := by
  unfold Touch
  rw [overlap_comm]
  refine and_congr_right fun _ => forall_congr' fun p => and_comm

/-- inserting a piece that overlaps nothing -/
theorem insertMergeEq_ok [BEq V] [LawfulBEq V] {m : NoditMap K V} (h : WF m.iter) (hn : NoMerge m.iter)
    (hk' : Keys m.iter) {k : K} (hk : Valid k) (hki : ∃ i : Interval I, k = ofInterval i) (v : V)
    (hno : ∀ e ∈ m.iter, ¬ Overlap e.1 k) :
    ∃ m' r, m.insertMergeTouchingIfValuesEqual k v = .ok (m', .ok r) ∧ WF m'.iter ∧ NoMerge m'.iter ∧ Keys m'.iter ∧
      (∀ p w, At m'.iter p w ↔ At m.iter p w ∨ (Mem p k ∧ v = w)) := by
  obtain ⟨m', r, h1, h2, -, h4⟩ := C11_insert_merge_touching_if_values_equal h k hk v
  obtain ⟨r, rfl, h5, h6, h7⟩ := h4 hno
  have hkv := valid_iff.1 hk
  have hrv : start r ≤ stop r := by
    obtain ⟨p, hp⟩ := hk
    have := (h5 p).2 (Or.inl hp)
    exact le_trans this.1 this.2
  -- a kept entry touching the merged interval has another value
  have key : ∀ d ∈ m.iter, ¬ (Touch d.1 k ∧ (d.2 == v) = true) → Touch d.1 r → d.2 ≠ v := by
    intro d hd hdk ht hdv
    have hdk' : ¬ Touch d.1 k := fun hc => hdk ⟨hc, by simp [hdv]⟩
    have hdv' := valid_iff.1 (h.1 d hd)
    rw [touch_iff hdv' hrv] at ht
    rw [touch_iff hdv' hkv] at hdk'
    rcases ht with ht | ht
    · rcases (h5 (start r)).1 ⟨le_refl _, hrv⟩ with hm | ⟨c, hc, hck, hcv, hm⟩
      · have : start k = start r := le_antisymm hm.1 ((h5 (start k)).2 (Or.inl ⟨le_refl _, hkv⟩)).1
        exact hdk' (Or.inl (this ▸ ht))
      · have hcv' := valid_iff.1 (h.1 c hc)
        have : start c.1 = start r :=
          le_antisymm hm.1 ((h5 (start c.1)).2 (Or.inr ⟨c, hc, hck, hcv, ⟨le_refl _, hcv'⟩⟩)).1
        exact hn d hd c hc ((touch_iff hdv' hcv').2 (Or.inl (this ▸ ht))) (by rw [hdv, eq_of_beq hcv])
    · rcases (h5 (stop r)).1 ⟨hrv, le_refl _⟩ with hm | ⟨c, hc, hck, hcv, hm⟩
      · have : stop k = stop r := le_antisymm ((h5 (stop k)).2 (Or.inl ⟨hkv, le_refl _⟩)).2 hm.2
        exact hdk' (Or.inr (this ▸ ht))
      · have hcv' := valid_iff.1 (h.1 c hc)
        have : stop c.1 = stop r :=
          le_antisymm ((h5 (stop c.1)).2 (Or.inr ⟨c, hc, hck, hcv, ⟨hcv', le_refl _⟩⟩)).2 hm.2
        exact hn d hd c hc ((touch_iff hdv' hcv').2 (Or.inr (this ▸ ht))) (by rw [hdv, eq_of_beq hcv])
  refine ⟨m', r, h1, h2, ?_, ?_, fun p w => ?_⟩
  · intro e he d hd ht
    rcases (h7 e).1 he with ⟨he, hek⟩ | rfl <;> rcases (h7 d).1 hd with ⟨hd, hdk⟩ | rfl
    · exact hn e he d hd ht
    · exact key e he hek ht
    · exact fun hc => key d hd hdk (touch_comm'.1 ht) hc.symm
    · exact absurd ⟨start r, ⟨le_refl _, hrv⟩, ⟨le_refl _, hrv⟩⟩ ht.1
  · intro e he
    rcases (h7 e).1 he with ⟨he, -⟩ | rfl
    · exact hk' e he
    · by_cases hc : ∃ d ∈ {e | e ∈ m.iter ∧ Touch e.1 k ∧ (e.2 == v) = true}, ¬ StrictlyInside d.1 k
      · exact h6.2.2 hc
      · have : r = k := h6.2.1 fun d hd => by by_contra hs; exact hc ⟨d, hd, hs⟩
        show ∃ i, r = _
        rw [this]; exact hki
  · constructor
    · rintro ⟨e, he, hp, rfl⟩
      rcases (h7 e).1 he with ⟨he, -⟩ | rfl
      · exact Or.inl ⟨e, he, hp, rfl⟩
      · rcases (h5 p).1 hp with hp | ⟨c, hc, -, hcv, hp⟩
        · exact Or.inr ⟨hp, rfl⟩
        · exact Or.inl ⟨c, hc, hp, eq_of_beq hcv⟩
    · rintro (⟨e, he, hp, rfl⟩ | ⟨hp, rfl⟩)
      · by_cases hc : Touch e.1 k ∧ (e.2 == v) = true
        · exact ⟨(r, v), (h7 _).2 (Or.inr rfl), (h5 p).2 (Or.inr ⟨e, he, hc.1, hc.2, hp⟩), (eq_of_beq hc.2).symm⟩
        · exact ⟨e, (h7 _).2 (Or.inl ⟨he, hc⟩), hp, rfl⟩
      · exact ⟨(r, v), (h7 _).2 (Or.inr rfl), (h5 p).2 (Or.inl hp), rfl⟩

theorem at_cut {m m' : NoditMap K V} {out : List (K × V)} (h : WF m.iter) {q : Q} (hq : Valid q)
    (hc : m.cut q = .ok (m', out)) : WF m'.iter ∧ WF out ∧ (NoMerge m.iter → NoMerge m'.iter) ∧
      (Keys m.iter → Keys m'.iter) ∧ Keys out ∧ (∀ e ∈ out, ∀ d ∈ m'.iter, ¬ Overlap d.1 e.1) ∧
      (∀ p w, At m'.iter p w ↔ ¬ Mem p q ∧ At m.iter p w) ∧ (∀ p w, At out p w ↔ Mem p q ∧ At m.iter p w) := by
  obtain ⟨m1, out1, h1, h2, h3, h4, h5⟩ := C08_cut_exact h q hq
  rw [h1] at hc; cases hc
  have hpt := fun p => C08_cut_pointwise h q hq h1 p
  have hat : ∀ {m : NoditMap K V}, WF m.iter → ∀ p w, At m.iter p w ↔ m.getAtPoint p = .ok (some w) := by
    intro m hm p w
    obtain ⟨r, e1, e2⟩ := spec_getAtPoint hm p
    rw [e1, Except.ok.injEq, e2]; rfl
  have hat' : ∀ p w, At m'.iter p w ↔ ¬ Mem p q ∧ At m.iter p w := by
    intro p w
    rw [hat h2, hat h]
    by_cases hp : Mem p q
    · rw [(hpt p).1 hp]; simp [hp]
    · rw [(hpt p).2.1 hp]; simp [hp]
  have hato : ∀ p w, At out p w ↔ Mem p q ∧ At m.iter p w := fun p w => (hpt p).2.2 w
  refine ⟨h2, h3, fun hn => ?_, fun hk => ?_, ?_, ?_, hat', hato⟩
  · intro e he d hd ht hv
    have hev := valid_iff.1 (h2.1 e he); have hdv := valid_iff.1 (h2.1 d hd)
    -- wlog `e` is directly below `d`
    have main : ∀ e ∈ m'.iter, ∀ d ∈ m'.iter, up (stop e.1) = some (start d.1) → e.2 ≠ d.2 := by
      intro e he d hd hu hv
      have hev := valid_iff.1 (h2.1 e he); have hdv := valid_iff.1 (h2.1 d hd)
      obtain ⟨hx, e', he', hxe, hve⟩ := (hat' (stop e.1) e.2).1 ⟨e, he, ⟨hev, le_refl _⟩, rfl⟩
      obtain ⟨hy, d', hd', hyd, hvd⟩ := (hat' (start d.1) d.2).1 ⟨d, hd, ⟨le_refl _, hdv⟩, rfl⟩
      obtain ⟨hu1, hu2⟩ := up_eq_some.1 hu
      by_cases heq : e' = d'
      · subst heq
        -- both parts of one entry: then the cut lies between them, but nothing does
        have hpart : ∀ a ∈ m'.iter, ∀ x, Mem x a.1 → Mem x e'.1 → (a = e' ∧ ¬ Overlap e'.1 q) ∨ (Overlap e'.1 q ∧ ∃ i : Interval I, a.1 = ofInterval i ∧
            (Describes i (fun p => Mem p e'.1 ∧ ∀ x, Mem x q → p < x) ∨
           Describes i (fun p => Mem p e'.1 ∧ ∀ x, Mem x q → x < p))) := by
          intro a ha x hxa hxe'
          rcases (h5 a).1 ha with ⟨ha', hno⟩ | ⟨f, hf, ho, i, rfl, hd⟩
          · have := (wf_iff_chain.1 h).eq_of_common ha' he' (le_trans hxa.1 hxe'.2) (le_trans hxe'.1 hxa.2)
            subst this; exact Or.inl ⟨rfl, hno⟩
          · have hxf : Mem x f.1 := by
              rcases hd with hd | hd <;> exact ((hd.2 x).1 (mem_ofInterval.1 hxa)).1
            have := (wf_iff_chain.1 h).eq_of_common hf he' (le_trans hxf.1 hxe'.2) (le_trans hxe'.1 hxf.2)
            subst this; exact Or.inr ⟨ho, i, rfl, hd⟩
        have hxm : Mem (stop e.1) e.1 := ⟨hev, le_refl _⟩
        have hym : Mem (start d.1) d.1 := ⟨le_refl _, hdv⟩
        have hq' := valid_iff.1 hq
        rcases hpart e he _ hxm hxe with ⟨rfl, hno⟩ | ⟨ho, i, hi, hdi⟩
        · exact absurd hyd.2 (not_le.2 hu1)
        · rcases hpart d hd _ hym hyd with ⟨rfl, hno⟩ | ⟨-, j, hj, hdj⟩
          · exact absurd hxe.1 (not_le.2 hu1)
          · have hxi : Mem (stop e.1) i := by
              generalize stop e.1 = x at hxm
              rw [hi] at hxm; exact mem_ofInterval.1 hxm
            have hyj : Mem (start d.1) j := by
              generalize start d.1 = y at hym
              rw [hj] at hym; exact mem_ofInterval.1 hym
            rcases hdi with hdi | hdi <;> rcases hdj with hdj | hdj
            · have : Mem (start d.1) (ofInterval i : K) := mem_ofInterval.2 ((hdi.2 _).2 ((hdj.2 _).1 hyj))
              exact absurd (show Mem (start d.1) e.1 from hi ▸ this).2 (not_le.2 hu1)
            · have h6 := ((hdi.2 _).1 hxi).2 (start q) ⟨le_refl _, hq'⟩
              have h7 := ((hdj.2 _).1 hyj).2 (start q) ⟨le_refl _, hq'⟩
              exact absurd (hu2 _ h6) (not_le.2 h7)
            · have h6 := ((hdi.2 _).1 hxi).2 (start q) ⟨le_refl _, hq'⟩
              have h7 := ((hdj.2 _).1 hyj).2 (start q) ⟨le_refl _, hq'⟩
              order
            · have : Mem (stop e.1) (ofInterval j : K) := mem_ofInterval.2 ((hdj.2 _).2 ((hdi.2 _).1 hxi))
              exact absurd (show Mem (stop e.1) d.1 from hj ▸ this).1 (not_le.2 hu1)
      · have hev' := valid_iff.1 (h.1 e' he'); have hdv' := valid_iff.1 (h.1 d' hd')
        rcases (wf_iff_chain.1 h).apart he' hd' heq with hlt | hlt
        · refine hn e' he' d' hd' ((touch_iff hev' hdv').2 (Or.inl (up_eq_some.2 ⟨hlt, fun z hz => ?_⟩))) (by rw [hve, hvd, hv])
          exact le_trans hyd.1 (hu2 z (lt_of_le_of_lt hxe.2 hz))
        · have := hxe.1; have := hyd.2; order
    rcases (touch_iff hev hdv).1 ht with ht | ht
    · exact main e he d hd ht hv
    · exact main d hd e he ht hv.symm
  · intro e he
    rcases (h5 e).1 he with ⟨he', -⟩ | ⟨f, hf, ho, i, rfl, -⟩
    · exact hk e he'
    · exact ⟨i, rfl⟩
  · intro e he
    obtain ⟨f, hf, i, rfl, -⟩ := (h4 e).1 he
    exact ⟨i, rfl⟩
  · rintro e he d hd ⟨p, hpd, hpe⟩
    exact ((hat' p d.2).1 ⟨d, hd, hpd, rfl⟩).1 ((hato p e.2).1 ⟨e, he, hpe, rfl⟩).1

namespace Gqdit
variable [DecidableEq D]

theorem putBack_ok (f : Finset D → Finset D) {m : NoditMap K (Finset D)} {l : List (K × Finset D)} (h : WF m.iter)
    (hn : NoMerge m.iter) (hk : Keys m.iter) (hl : WF l) (hlk : Keys l) (hno : ∀ e ∈ l, ∀ d ∈ m.iter, ¬ Overlap d.1 e.1) :
    ∃ m', putBack f m l = .ok m' ∧ WF m'.iter ∧ NoMerge m'.iter ∧ Keys m'.iter ∧
      ∀ p w, At m'.iter p w ↔ At m.iter p w ∨ ∃ v, At l p v ∧ f v = w := by
  induction l generalizing m with
  | nil => exact ⟨m, rfl, h, hn, hk, fun p w => by simp [At]⟩
  | cons a l ih =>
    obtain ⟨k, ids⟩ := a
    obtain ⟨m1, r, h1, h2, h3, h4, h5⟩ := insertMergeEq_ok h hn hk (hl.1 (k, ids) (by simp)) (hlk (k, ids) (by simp)) (f ids)
      (hno (k, ids) (by simp))
    have hl' : WF l := ⟨fun e he => hl.1 e (by simp [he]), (List.pairwise_cons.1 hl.2).2⟩
    obtain ⟨m', e1, e2, e3, e4, e5⟩ := ih h2 h3 h4 hl' (fun e he => hlk e (by simp [he])) (by
      rintro e he d hd ⟨p, hpd, hpe⟩
      rcases (h5 p d.2).1 ⟨d, hd, hpd, rfl⟩ with ⟨d', hd', hp', -⟩ | ⟨hpk, -⟩
      · exact hno e (by simp [he]) d' hd' ⟨p, hp', hpe⟩
      · exact lt_irrefl _ ((List.pairwise_cons.1 hl.2).1 e he p p hpk hpe))
    refine ⟨m', by rw [putBack, h1]; exact e1, e2, e3, e4, fun p w => ?_⟩
    rw [e5, h5]
    constructor
    · rintro ((hh | ⟨hp, rfl⟩) | ⟨v, ⟨e, he, hp, rfl⟩, rfl⟩)
      · exact Or.inl hh
      · exact Or.inr ⟨ids, ⟨(k, ids), by simp, hp, rfl⟩, rfl⟩
      · exact Or.inr ⟨_, ⟨e, by simp [he], hp, rfl⟩, rfl⟩
    · rintro (hh | ⟨v, ⟨e, he, hp, rfl⟩, rfl⟩)
      · exact Or.inl (Or.inl hh)
      · rcases List.mem_cons.1 he with rfl | he
        · exact Or.inl (Or.inr ⟨hp, rfl⟩)
        · exact Or.inr ⟨_, ⟨e, he, hp, rfl⟩, rfl⟩

/-- the invariant: `g` is the canonical representation of the function `f` from points to identifier sets -/
structure Rep (g : Gqdit K D) (f : I → Finset D) : Prop where
  wf : WF g.inner.iter
  noMerge : NoMerge g.inner.iter
  keys : Keys g.inner.iter
  at_iff : ∀ p w, At g.inner.iter p w ↔ f p = w

theorem new_rep : ∃ g : Gqdit K D, new = .ok g ∧ Rep g (fun _ => ∅) := by
  have hfull : (uu : Res (Interval I)) = .ok ⟨MIN, MAX⟩ := by
    unfold uu mkChecked; rw [invalidIntervalPanic_ok (min_le _)]; rfl
  have hm : ∀ p : I, Mem p (ofInterval (⟨MIN, MAX⟩ : Interval I) : K) := fun p =>
    mem_ofInterval.2 ⟨min_le p, le_max p⟩
  obtain ⟨m', r, h1, h2, -, h4⟩ := C06_insert_strict (wf_new (K := K) (V := Finset D) (I := I))
    (ofInterval ⟨MIN, MAX⟩) ⟨MIN, hm _⟩ ∅
  obtain ⟨rfl, h5, -⟩ := h4 (by simp [NoditMap.new, NoditMap.iter])
  have h6 : ∀ e, e ∈ m'.iter ↔ e = (ofInterval (⟨MIN, MAX⟩ : Interval I), ∅) := by
    intro e; rw [h5]; simp [NoditMap.new, NoditMap.iter]
  refine ⟨⟨m'⟩, ?_, h2, ?_, ?_, ?_⟩
  · unfold new; rw [hfull]; simp only [bind, Except.bind, h1]; rfl
  · intro e he d hd ht
    rw [h6] at he hd; subst he; subst hd
    exact absurd ⟨MIN, hm _, hm _⟩ ht.1
  · intro e he; rw [h6] at he; subst he; exact ⟨_, rfl⟩
  · intro p w
    constructor
    · rintro ⟨e, he, hp, rfl⟩; rw [h6] at he; subst he; rfl
    · rintro rfl; exact ⟨_, (h6 _).2 rfl, hm p, rfl⟩

open Classical in
theorem Rep.cutPut {g : Gqdit K D} {f : I → Finset D} (h : Rep g f) {q : Q} (hq : Valid q) (φ : Finset D → Finset D) :
    ∃ mc out m', g.inner.cut q = .ok (mc, out) ∧ putBack φ mc out = .ok m' ∧
      Rep ⟨m'⟩ (fun p => if Mem p q then φ (f p) else f p) := by
  obtain ⟨mc, out, h1, -⟩ := C08_cut_exact h.wf q hq
  obtain ⟨c1, c2, c3, c4, c5, c6, c7, c8⟩ := at_cut h.wf hq h1
  obtain ⟨m', e1, e2, e3, e4, e5⟩ := putBack_ok φ c1 (c3 h.noMerge) (c4 h.keys) c2 c5 c6
  refine ⟨mc, out, m', h1, e1, e2, e3, e4, fun p w => ?_⟩
  rw [e5]
  simp only [c7, c8, h.at_iff]
  by_cases hp : Mem p q <;> simp [hp]

theorem Rep.unique {g : Gqdit K D} {f f' : I → Finset D} (h : Rep g f) (h' : Rep g f') : f = f' :=
  funext fun p => ((h.at_iff p _).1 ((h'.at_iff p _).2 rfl))

open Classical in
theorem Rep.insert {g : Gqdit K D} {f : I → Finset D} (h : Rep g f) {k : K} (hk : Valid k) (ids : Finset D) :
    ∃ g', g.insert ids k = .ok g' ∧ Rep g' (fun p => if Mem p k then f p ∪ ids else f p) := by
  unfold Gqdit.insert
  rw [invalidIntervalPanic_ok (valid_iff.1 hk)]
  simp only [bind, Except.bind]
  split_ifs with he
  · subst he
    refine ⟨g, rfl, ?_⟩
    have : (fun p => if Mem p k then f p ∪ ∅ else f p) = f := by funext p; simp
    rw [this]; exact h
  · obtain ⟨mc, out, m', h1, h2, h3⟩ := h.cutPut hk (fun v => v ∪ ids)
    exact ⟨⟨m'⟩, by rw [h1]; simp only [h2]; rfl, h3⟩

open Classical in
theorem Rep.cutWith {g : Gqdit K D} {f : I → Finset D} (h : Rep g f) {q : Q} (hq : Valid q) (ids : Finset D) :
    ∃ g', g.cutWithIdentifiers ids q = .ok g' ∧ Rep g' (fun p => if Mem p q then f p \ ids else f p) := by
  have hsd : ∀ v : Finset D, v.filter (fun i => i ∉ ids) = v \ ids := fun v => by ext x; simp
  unfold Gqdit.cutWithIdentifiers
  rw [invalidIntervalPanic_ok (valid_iff.1 hq)]
  simp only [bind, Except.bind]
  split_ifs with he
  · subst he
    refine ⟨g, rfl, ?_⟩
    have : (fun p => if Mem p q then f p \ ∅ else f p) = f := by funext p; simp
    rw [this]; exact h
  · obtain ⟨mc, out, m', h1, h2, h3⟩ := h.cutPut hq (fun v => v.filter (fun i => i ∉ ids))
    refine ⟨⟨m'⟩, by rw [h1]; simp only [h2]; rfl, ?_⟩
    simpa only [hsd] using h3

open Classical in
theorem Rep.cutAll {g : Gqdit K D} {f : I → Finset D} (h : Rep g f) {q : Q} (hq : Valid q) :
    ∃ g', g.cutAllIdentifiers q = .ok g' ∧ Rep g' (fun p => if Mem p q then ∅ else f p) := by
  unfold Gqdit.cutAllIdentifiers
  rw [invalidIntervalPanic_ok (valid_iff.1 hq)]
  obtain ⟨mc, out, m', h1, h2, h3⟩ := h.cutPut hq (fun _ => ∅)
  exact ⟨⟨m'⟩, by simp only [bind, Except.bind, h1, h2]; rfl, h3⟩

theorem Rep.insertAll {g : Gqdit K D} {f : I → Finset D} (h : Rep g f) {l : List (K × Finset D)}
    (hl : ∀ e ∈ l, Valid e.1) : ∃ g' f', g.insertAll l = .ok g' ∧ Rep g' f' ∧
      ∀ p d, d ∈ f' p ↔ d ∈ f p ∨ ∃ e ∈ l, Mem p e.1 ∧ d ∈ e.2 := by
  classical
  induction l generalizing g f with
  | nil => exact ⟨g, f, rfl, h, by simp⟩
  | cons a l ih =>
    obtain ⟨k, ids⟩ := a
    obtain ⟨g1, e1, e2⟩ := h.insert (hl (k, ids) (by simp)) ids
    obtain ⟨g', f', e3, e4, e5⟩ := ih e2 (fun e he => hl e (by simp [he]))
    refine ⟨g', f', by rw [Gqdit.insertAll, e1]; exact e3, e4, fun p d => ?_⟩
    rw [e5]
    by_cases hp : Mem p k <;> simp [hp, or_assoc]

theorem Rep.append {g h : Gqdit K D} {f f' : I → Finset D} (hg : Rep g f) (hh : Rep h f') :
    ∃ g', g.append h = .ok (g', ⟨⟨[]⟩⟩) ∧ Rep g' (fun p => f p ∪ f' p) := by
  have hfull : (uu : Res (Interval I)) = .ok ⟨MIN, MAX⟩ := by
    unfold uu mkChecked; rw [invalidIntervalPanic_ok (min_le _)]; rfl
  have hm : ∀ p : I, Mem p (⟨MIN, MAX⟩ : Interval I) := fun p => ⟨min_le p, le_max p⟩
  obtain ⟨m', out, h1, h2, h3, h4, h5⟩ := C07_remove_overlapping hh.wf (⟨MIN, MAX⟩ : Interval I) ⟨MIN, hm _⟩
  have hov : ∀ e ∈ h.inner.iter, Overlap e.1 (⟨MIN, MAX⟩ : Interval I) := fun e he => by
    obtain ⟨p, hp⟩ := hh.wf.1 e he; exact ⟨p, hp, hm p⟩
  have hm' : m' = ⟨[]⟩ := by
    have : m'.iter = [] := List.eq_nil_iff_forall_not_mem.2 fun e he => ((h5 e).1 he).2 (hov e ((h5 e).1 he).1)
    cases m'; simp only [NoditMap.iter] at this; rw [this]
  obtain ⟨g', f'', e1, e2, e3⟩ := hg.insertAll (l := out) (fun e he => hh.wf.1 e ((h4 e).1 he).1)
  refine ⟨g', ?_, ?_⟩
  · unfold Gqdit.append
    rw [hfull]; simp only [bind, Except.bind, h1, e1, hm']; rfl
  · have : f'' = fun p => f p ∪ f' p := by
      funext p; ext d
      rw [e3, Finset.mem_union]
      refine or_congr Iff.rfl ⟨?_, fun hd => ?_⟩
      · rintro ⟨e, he, hp, hd⟩
        rw [(hh.at_iff p e.2).1 ⟨e, ((h4 e).1 he).1, hp, rfl⟩]; exact hd
      · obtain ⟨e, he, hp, hv⟩ := (hh.at_iff p (f' p)).2 rfl
        exact ⟨e, (h4 e).2 ⟨he, hov e he⟩, hp, by rw [hv]; exact hd⟩
    rw [← this]; exact e2

theorem Rep.identifiers {g : Gqdit K D} {f : I → Finset D} (h : Rep g f) (p : I) :
    g.identifiersAtPoint p = .ok (f p) := by
  obtain ⟨e, he, hp, hv⟩ := (h.at_iff p (f p)).2 rfl
  unfold identifiersAtPoint
  rw [getAtPoint_eq h.wf he hp, hv]; rfl

end Gqdit
end Nodit
