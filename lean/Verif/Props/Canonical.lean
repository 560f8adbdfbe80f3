import Verif.Props.SetProps
/-!
# C52, C53: coalescing histories keep the canonical form

If all that is inserted is joined with its (equal-valued) neighbours, the entries are exactly the maximal runs of
points (of equal value), whatever the order of the calls.
-/
set_option linter.unusedSectionVars false
namespace Nodit
open Spec PointType

section
variable {I K A B V : Type} [PointType I] [IntervalType I K] [IntervalType I A] [IntervalType I B] [LawfulPoint I] [LawfulInterval I K]

/-- there is a point strictly between the two -/
def Separated (a : A) (b : B) : Prop :=
  ∃ p, ((∀ x, Mem x a → x < p) ∧ ∀ y, Mem y b → p < y) ∨ ((∀ y, Mem y b → y < p) ∧ ∀ x, Mem x a → p < x)

omit [LawfulInterval I K] in
theorem Separated.symm {a : A} {b : B} (h : Separated a b) : Separated b a := by
  obtain ⟨p, h | h⟩ := h
  · exact ⟨p, Or.inr h⟩
  · exact ⟨p, Or.inl h⟩

omit [LawfulInterval I K] in
theorem Separated.mono {A' B' : Type} [IntervalType I A'] [IntervalType I B'] {a : A} {b : B} {a' : A'} {b' : B'}
    (h : Separated a b) (ha : ∀ x, Mem x a' → Mem x a) (hb : ∀ x, Mem x b' → Mem x b) : Separated a' b' := by
  obtain ⟨p, h | h⟩ := h
  · exact ⟨p, Or.inl ⟨fun x hx => h.1 x (ha x hx), fun x hx => h.2 x (hb x hx)⟩⟩
  · exact ⟨p, Or.inr ⟨fun x hx => h.1 x (hb x hx), fun x hx => h.2 x (ha x hx)⟩⟩

omit [LawfulInterval I K] in
theorem separated_of {a : A} {b : B} (ht : ¬ Touch a b) (ho : ¬ Overlap a b) : Separated a b := by
  by_contra hc
  refine ht ⟨ho, fun p => ⟨fun h => hc ⟨p, Or.inl h⟩, fun h => hc ⟨p, Or.inr h⟩⟩⟩

omit [LawfulInterval I K] in
theorem Separated.not_mem {a : A} {b : B} (h : Separated a b) {x : I} (ha : Mem x a) (hb : Mem x b) : False := by
  obtain ⟨p, h | h⟩ := h
  · exact lt_irrefl _ (lt_trans (h.1 x ha) (h.2 x hb))
  · exact lt_irrefl _ (lt_trans (h.1 x hb) (h.2 x ha))

omit [LawfulInterval I K] in
/-- separated from all parts, separated from the whole -/
theorem separated_union {d r : K} {P : K → Prop} (hd : Valid d) (hr : Valid r) (hu : ∀ p, Mem p r → ∃ e, P e ∧ Mem p e)
    (hP : ∀ e, P e → Separated d e) : Separated d r := by
  have hr' := valid_iff.1 hr
  obtain ⟨e, he, hse⟩ := hu (start r) ⟨le_refl _, hr'⟩
  obtain ⟨e', he', hse'⟩ := hu (stop r) ⟨hr', le_refl _⟩
  obtain ⟨p, h | h⟩ := hP e he
  · exact ⟨p, Or.inl ⟨h.1, fun y hy => lt_of_lt_of_le (h.2 _ hse) hy.1⟩⟩
  · obtain ⟨p', h' | h'⟩ := hP e' he'
    · exfalso
      obtain ⟨x, hx⟩ := hd
      have hxr : Mem x r := ⟨(lt_trans (h.1 _ hse) (h.2 x hx)).le, (lt_trans (h'.1 x hx) (h'.2 _ hse')).le⟩
      obtain ⟨f, hf, hxf⟩ := hu x hxr
      exact (hP f hf).not_mem hx hxf
    · exact ⟨p', Or.inr ⟨fun y hy => lt_of_le_of_lt hy.2 (h'.1 _ hse'), h'.2⟩⟩

omit [LawfulInterval I K] in
/-- an entry is a maximal run if all points just beside it are not -/
theorem maximalRun_of_beside {k : K} {P : I → Prop} (hk : Valid k) (hP : ∀ p, Mem p k → P p)
    (hu : ∀ y, up (stop k) = some y → ¬ P y) (hd : ∀ y, down (start k) = some y → ¬ P y) :
    MaximalRun P (⟨start k, stop k⟩ : Interval I) := by
  refine ⟨⟨start k, le_refl _, valid_iff.1 hk⟩, hP, ?_⟩
  rintro j hj ⟨x, hx, hxj⟩ p hp
  have hxj1 : start j ≤ x := hxj.1
  have hxj2 : x ≤ stop j := hxj.2
  have hx1 : start k ≤ x := hx.1
  have hx2 : x ≤ stop k := hx.2
  constructor
  · show start k ≤ p
    by_contra hc
    obtain ⟨d, hd1, hd2, hd3, -⟩ := down_exists (not_le.1 hc)
    refine hd d hd1 (hj d ⟨?_, ?_⟩)
    · exact le_trans hp.1 hd3
    · exact le_trans (le_trans hd2.le hx1) hxj2
  · show p ≤ stop k
    by_contra hc
    obtain ⟨d, hd1, hd2, hd3, -⟩ := up_exists (not_le.1 hc)
    refine hu d hd1 (hj d ⟨?_, ?_⟩)
    · exact le_trans (le_trans hxj1 hx2) hd2.le
    · exact le_trans hd3 hp.2

omit [LawfulInterval I K] in
theorem Separated.not_up {a : A} {b : B} (h : Separated a b) (hva : Valid a) {y : I} (hu : up (stop a) = some y) (hb : Mem y b) : False := by
  obtain ⟨h1, h2⟩ := LawfulPoint.up_some _ _ hu
  have ha' : Mem (stop a) a := ⟨valid_iff.1 hva, le_refl _⟩
  obtain ⟨p, h | h⟩ := h
  · have := h2 p (h.1 _ ha'); exact absurd (h.2 y hb) (not_lt.2 this)
  · exact absurd (lt_trans (h.1 y hb) (h.2 _ ha')) (not_lt.2 h1.le)

omit [LawfulInterval I K] in
theorem Separated.not_down {a : A} {b : B} (h : Separated a b) (hva : Valid a) {y : I} (hu : down (start a) = some y) (hb : Mem y b) : False := by
  obtain ⟨h1, h2⟩ := LawfulPoint.down_some _ _ hu
  have ha' : Mem (start a) a := ⟨le_refl _, valid_iff.1 hva⟩
  obtain ⟨p, h | h⟩ := h
  · exact absurd (lt_trans (h.1 _ ha') (h.2 y hb)) (not_lt.2 h1.le)
  · have := h2 p (h.2 _ ha'); exact absurd (h.1 y hb) (not_lt.2 this)

/-! ## Maps -/
namespace NoditMap

/-- different entries of equal value are separated -/
def Coalesced (l : List (K × V)) : Prop := ∀ d ∈ l, ∀ e ∈ l, d = e ∨ d.2 ≠ e.2 ∨ Separated d.1 e.1

theorem coalesced_cut {m m' : NoditMap K V} {out : List (K × V)} (h : WF m.iter) (hc : Coalesced m.iter) {Q : Type} [IntervalType I Q]
    {q : Q} (hq : Valid q) (hcut : m.cut q = .ok (m', out)) : Coalesced m'.iter := by
  obtain ⟨m'', out', h1, h2, h3, h4, h5⟩ := C08_cut_exact h q hq
  rw [h1] at hcut; cases hcut
  -- every entry left comes from an old one, as a part of it
  have from' : ∀ e ∈ m'.iter, ∃ f ∈ m.iter, e.2 = f.2 ∧ (∀ x, Mem x e.1 → Mem x f.1) := by
    intro e he
    rcases (h5 e).1 he with ⟨he', -⟩ | ⟨f, hf, -, i, rfl, hd | hd⟩
    · exact ⟨e, he', rfl, fun _ h => h⟩
    · exact ⟨f, hf, rfl, fun x hx => ((hd.2 x).1 (mem_ofInterval.1 hx)).1⟩
    · exact ⟨f, hf, rfl, fun x hx => ((hd.2 x).1 (mem_ofInterval.1 hx)).1⟩
  intro d hd e he
  by_cases hde : d = e
  · exact Or.inl hde
  right
  by_cases hv : d.2 = e.2
  swap
  · exact Or.inl hv
  right
  obtain ⟨f, hf, hfv, hfm⟩ := from' d hd
  obtain ⟨g, hg, hgv, hgm⟩ := from' e he
  rcases hc f hf g hg with rfl | hne | hs
  · -- two parts of the same entry
    have uniq : ∀ {f g : K × V}, f ∈ m.iter → g ∈ m.iter → ∀ {x}, Mem x f.1 → Mem x g.1 → f = g := fun hf hg _ h1 h2 =>
      (C03_point_lookup h _).2.2.2 _ hf _ hg h1 h2
    have cls : ∀ a ∈ m'.iter, (∀ x, Mem x a.1 → Mem x f.1) → (a = f ∧ ¬ Overlap f.1 q) ∨
        (Overlap f.1 q ∧ ∃ i : Interval I, a = (ofInterval i, f.2) ∧ (Describes i (fun p => Mem p f.1 ∧ ∀ x, Mem x q → p < x) ∨
           Describes i (fun p => Mem p f.1 ∧ ∀ x, Mem x q → x < p))) := by
      intro a ha hsub
      obtain ⟨x, hx⟩ := h2.1 a ha
      rcases (h5 a).1 ha with ⟨ha', hno⟩ | ⟨g, hg, ho, i, rfl, hd⟩
      · have := uniq ha' hf hx (hsub x hx); subst this; exact Or.inl ⟨rfl, hno⟩
      · have hxg : Mem x g.1 := by
          rcases hd with hd | hd <;> exact ((hd.2 x).1 (mem_ofInterval.1 hx)).1
        have := uniq hg hf hxg (hsub x hx); subst this
        exact Or.inr ⟨ho, i, rfl, hd⟩
    rcases cls d hd hfm with ⟨rfl, hno⟩ | ⟨ho, i, rfl, hi⟩
    · rcases cls e he hgm with ⟨rfl, -⟩ | ⟨ho, -⟩
      · exact absurd rfl hde
      · exact absurd ho hno
    · rcases cls e he hgm with ⟨rfl, hno⟩ | ⟨-, j, rfl, hj⟩
      · exact absurd ho hno
      · obtain ⟨x, hxf, hxq⟩ := ho
        rcases hi with hi | hi <;> rcases hj with hj | hj
        · exact absurd (by rw [interval_eq_of_mem_iff hi.1 (fun p => (hi.2 p).trans (hj.2 p).symm)]) hde
        · exact ⟨x, Or.inl ⟨fun y hy => ((hi.2 y).1 (mem_ofInterval.1 hy)).2 x hxq, fun y hy => ((hj.2 y).1 (mem_ofInterval.1 hy)).2 x hxq⟩⟩
        · exact ⟨x, Or.inr ⟨fun y hy => ((hj.2 y).1 (mem_ofInterval.1 hy)).2 x hxq, fun y hy => ((hi.2 y).1 (mem_ofInterval.1 hy)).2 x hxq⟩⟩
        · exact absurd (by rw [interval_eq_of_mem_iff hi.1 (fun p => (hi.2 p).trans (hj.2 p).symm)]) hde
  · exact absurd (hfv.symm.trans (hv.trans hgv)) hne
  · exact hs.mono hfm hgm

omit [LawfulInterval I K] in
/-- adding an entry `(r, v)` made of `k` and the entries satisfying `R`, where the equal-valued entries left are
separated from `k` -/
theorem coalesced_merge {l l' : List (K × V)} (hw : WF l) (hc : Coalesced l) {k r : K} {v : V} {R : K × V → Prop} (hk : Valid k)
    (hR : ∀ e ∈ l, R e → e.2 = v) (hr : ∀ p, Mem p r ↔ Mem p k ∨ ∃ e ∈ l, R e ∧ Mem p e.1)
    (hl : ∀ e, e ∈ l' ↔ (e ∈ l ∧ ¬ R e) ∨ e = (r, v))
    (hs : ∀ e ∈ l, ¬ R e → e.2 = v → Separated e.1 k) : Coalesced l' := by
  have hrv : Valid r := by obtain ⟨p, hp⟩ := hk; exact ⟨p, (hr p).2 (Or.inl hp)⟩
  have key : ∀ e ∈ l, ¬ R e → e.2 ≠ v ∨ Separated e.1 r := by
    intro e he hne
    by_cases hv : e.2 = v
    swap
    · exact Or.inl hv
    right
    refine separated_union (P := fun x => x = k ∨ ∃ f ∈ l, R f ∧ f.1 = x) (hw.1 e he) hrv ?_ ?_
    · intro p hp
      rcases (hr p).1 hp with hp | ⟨f, hf, hRf, hp⟩
      · exact ⟨k, Or.inl rfl, hp⟩
      · exact ⟨f.1, Or.inr ⟨f, hf, hRf, rfl⟩, hp⟩
    · rintro x (rfl | ⟨f, hf, hRf, rfl⟩)
      · exact hs e he hne hv
      · rcases hc e he f hf with rfl | hne' | h
        · exact absurd hRf hne
        · exact absurd (hv.trans (hR f hf hRf).symm) hne'
        · exact h
  intro d hd e he
  rcases (hl d).1 hd with ⟨hd, hRd⟩ | rfl <;> rcases (hl e).1 he with ⟨he, hRe⟩ | rfl
  · exact hc d hd e he
  · exact Or.inr (key d hd hRd)
  · exact Or.inr ((key e he hRe).imp Ne.symm Separated.symm)
  · exact Or.inl rfl

omit [LawfulInterval I K] in
theorem coalesced_sub {l l' : List (K × V)} (hc : Coalesced l) (h : ∀ e ∈ l', e ∈ l) : Coalesced l' :=
  fun d hd e he => hc d (h d hd) e (h e he)

theorem coalesced_step [BEq V] [LawfulBEq V] {m m' : NoditMap K V} (h : WF m.iter) (hc : Coalesced m.iter) {op : Op I K V}
    (hop : op.Coalescing) {o : Out K V} (hs : m.step op = .ok (m', o)) : Coalesced m'.iter := by
  cases op with
  | insertMergeTouchingIfValuesEqual k v =>
    rcases step_refines h (Op.insertMergeTouchingIfValuesEqual k v) with ⟨-, he⟩ | ⟨hb, m1, o1, ho, -⟩
    · rw [he] at hs; cases hs
    obtain ⟨m2, r, e1, e2, e3, e4⟩ := C11_insert_merge_touching_if_values_equal h k (not_not.1 hb) v
    simp only [step, bind, Except.bind, e1, pure, Except.pure] at hs
    cases hs
    by_cases hov : ∃ e ∈ m.iter, Overlap e.1 k
    · rw [(e3 hov).2]; exact hc
    · simp only [not_exists, not_and] at hov
      obtain ⟨k', -, e5, -, e6⟩ := e4 hov
      refine coalesced_merge h hc (k := k) (R := fun e => Touch e.1 k ∧ (e.2 == v) = true) (not_not.1 hb)
        (fun e _ hR => eq_of_beq hR.2) (fun p => ?_) e6 (fun e he hR hv => ?_)
      · rw [e5]; simp only [and_assoc]
      · exact separated_of (fun ht => hR ⟨ht, by simp [hv]⟩) (hov e he)
  | cut q =>
    rcases step_refines h (Op.cut q : Op I K V) with ⟨-, he⟩ | ⟨hb, m1, o1, ho, -⟩
    · rw [he] at hs; cases hs
    obtain ⟨m2, out, e1, -⟩ := C08_cut_exact h q (not_not.1 hb)
    simp only [step, bind, Except.bind, e1, pure, Except.pure] at hs
    cases hs
    exact coalesced_cut h hc (not_not.1 hb) e1
  | removeOverlapping q =>
    rcases step_refines h (Op.removeOverlapping q : Op I K V) with ⟨-, he⟩ | ⟨hb, m1, o1, ho, -⟩
    · rw [he] at hs; cases hs
    obtain ⟨m2, out, e1, -, -, -, e5⟩ := C07_remove_overlapping h q (not_not.1 hb)
    simp only [step, bind, Except.bind, e1, pure, Except.pure] at hs
    cases hs
    exact coalesced_sub hc (fun e he => ((e5 e).1 he).1)
  | insertStrict | insertMergeTouching | insertMergeOverlapping | insertMergeTouchingOrOverlapping | insertOverwrite
  | overlappingMut | getAtPointMut | iterMut => exact hop.elim
  | _ =>
    have : m' = m := by
      rcases step_refines h (_ : Op I K V) with ⟨-, he⟩ | ⟨hb, m1, o1, ho, hw, hsp⟩
      · rw [he] at hs; cases hs
      · rw [ho] at hs; cases hs
        have hset : m'.entrySet = m.entrySet := by
          simp only [SpecOp] at hsp
          grind
        have := (wf_iff_chain.1 hw).ext (wf_iff_chain.1 h) (fun e => Set.ext_iff.1 hset e)
        cases m; cases m'; exact congrArg _ this
    rw [this]; exact hc

omit [LawfulInterval I K] in
theorem coalesced_maximal {m : NoditMap K V} (h : WF m.iter) (hc : Coalesced m.iter) {e : K × V} (he : e ∈ m.iter) :
    MaximalRun (fun p => m.getAtPoint p = .ok (some e.2)) (⟨start e.1, stop e.1⟩ : Interval I) := by
  have hve := h.1 e he
  have beside : ∀ y, ¬ Mem y e.1 → (∀ d ∈ m.iter, Separated e.1 d.1 → ¬ Mem y d.1) → m.getAtPoint y ≠ .ok (some e.2) := by
    intro y hy hyd hget
    obtain ⟨r, h1, h2⟩ := spec_getAtPoint h y
    rw [h1] at hget; cases hget
    obtain ⟨d, hd, hyd', hv⟩ := (h2 e.2).1 rfl
    rcases hc e he d hd with rfl | hne | hs
    · exact hy hyd'
    · exact hne hv.symm
    · exact hyd d hd hs hyd'
  refine maximalRun_of_beside hve (fun p hp => getAtPoint_eq h he hp) (fun y hy => ?_) (fun y hy => ?_)
  · exact beside y (fun hm => absurd hm.2 (not_le.2 (LawfulPoint.up_some _ _ hy).1)) (fun d _ hs hm => hs.not_up hve hy hm)
  · exact beside y (fun hm => absurd hm.1 (not_le.2 (LawfulPoint.down_some _ _ hy).1)) (fun d _ hs hm => hs.not_down hve hy hm)

end NoditMap
open NoditMap

/-- **C53**: after any history of `insert_merge_touching_if_values_equal`, `cut`, `remove_overlapping` and queries (valid
arguments or not) the entries are exactly the maximal runs of points of equal value: for every value `v`, an interval
is a maximal run of points holding `v` iff there is an entry with these points and this value. -/
theorem C53_map_entries_are_maximal_runs [BEq V] [LawfulBEq V] (ops : List (Op I K V)) (hops : ∀ op ∈ ops, op.Coalescing) (v : V)
    (i : Interval I) :
    MaximalRun (fun p => ((new : NoditMap K V).run ops).1.getAtPoint p = .ok (some v)) i ↔
      ∃ k, (k, v) ∈ ((new : NoditMap K V).run ops).1.iter ∧ start k = i.start ∧ stop k = i.stop := by
  have key : ∀ (m : NoditMap K V), WF m.iter → Coalesced m.iter → Coalesced (m.run ops).1.iter := by
    intro m hm hc
    induction ops generalizing m with
    | nil => exact hc
    | cons op ops ih =>
      rcases step_refines hm op with ⟨-, he⟩ | ⟨-, m', o, ho, hw, -⟩
      · simp only [run, he]; exact ih (fun o ho => hops o (by simp [ho])) m hm hc
      · simp only [run, ho]
        exact ih (fun o ho => hops o (by simp [ho])) m' hw (coalesced_step hm hc (hops op (by simp)) ho)
  have hw := C01_invariant (K := K) ops
  have hc := key new wf_new (by simp [Coalesced, new, NoditMap.iter])
  generalize ((new : NoditMap K V).run ops).1 = m at *
  constructor
  · intro hi
    obtain ⟨p, hp⟩ := hi.1
    obtain ⟨r, h1, h2⟩ := spec_getAtPoint hw p
    have hr := hi.2.1 p hp
    simp only [h1] at hr; cases hr
    obtain ⟨e, he, hpe, rfl⟩ := (h2 v).1 rfl
    have := MaximalRun.unique hi (coalesced_maximal hw hc he) hp hpe
    subst this
    exact ⟨e.1, he, rfl, rfl⟩
  · rintro ⟨k, hk, h1, h2⟩
    have := coalesced_maximal hw hc hk
    rw [h1, h2] at this
    exact this

omit [LawfulInterval I K] in
/-- **C53**: so with `Interval<I>` as interval type the point-wise contents determine the map. -/
theorem C53_map_canonical [BEq V] [LawfulBEq V] (ops ops' : List (Op I (Interval I) V)) (hops : ∀ op ∈ ops, op.Coalescing)
    (hops' : ∀ op ∈ ops', op.Coalescing)
    (heq : ∀ p : I, ((new : NoditMap (Interval I) V).run ops).1.getAtPoint p = ((new : NoditMap (Interval I) V).run ops').1.getAtPoint p) :
    ((new : NoditMap (Interval I) V).run ops).1 = ((new : NoditMap (Interval I) V).run ops').1 := by
  have h1 := C53_map_entries_are_maximal_runs ops hops
  have h2 := C53_map_entries_are_maximal_runs ops' hops'
  have hmem : ∀ e, e ∈ ((new : NoditMap (Interval I) V).run ops).1.iter ↔ e ∈ ((new : NoditMap (Interval I) V).run ops').1.iter := by
    intro e
    have a1 := h1 e.2 e.1
    have a2 := h2 e.2 e.1
    simp only [heq] at a1
    rw [a1] at a2
    have red : ∀ l : List (Interval I × V), (∃ k, (k, e.2) ∈ l ∧ start k = e.1.start ∧ stop k = e.1.stop) ↔ e ∈ l := by
      intro l; constructor
      · rintro ⟨k, hk, hs, ht⟩
        have : k = e.1 := by cases k; cases e with | mk a b => cases a; simp only [start, stop] at hs ht; rw [hs, ht]
        rw [this] at hk; exact hk
      · intro he; exact ⟨e.1, he, rfl, rfl⟩
    rw [red, red] at a2; exact a2
  have := (wf_iff_chain.1 (C01_invariant (K := Interval I) ops)).ext (wf_iff_chain.1 (C01_invariant (K := Interval I) ops')) hmem
  generalize ((new : NoditMap (Interval I) V).run ops).1 = m at *
  generalize ((new : NoditMap (Interval I) V).run ops').1 = m' at *
  cases m; cases m'; exact congrArg _ this

namespace Demo
/-- the same contents built in two ways -/
def cops : List (Op U8 (Interval U8) Nat) :=
  [.insertMergeTouchingIfValuesEqual (iv 0 4) 7, .insertMergeTouchingIfValuesEqual (iv 10 20) 7, .insertMergeTouchingIfValuesEqual (iv 5 9) 7,
   .insertMergeTouchingIfValuesEqual (iv 21 30) 8, .cut (iv 2 3)]
def cops' : List (Op U8 (Interval U8) Nat) :=
  [.insertMergeTouchingIfValuesEqual (iv 4 20) 7, .insertMergeTouchingIfValuesEqual (iv 0 1) 7, .insertMergeTouchingIfValuesEqual (iv 25 30) 8,
   .insertMergeTouchingIfValuesEqual (iv 21 24) 8]
example : (NoditMap.new.run cops).1.iter = [(iv 0 1, 7), (iv 4 20, 7), (iv 21 30, 8)] ∧ (NoditMap.new.run cops).1 = (NoditMap.new.run cops').1 ∧
    (∀ op ∈ cops, op.Coalescing) ∧ ∀ op ∈ cops', op.Coalescing := by
  refine ⟨by decide, by decide, ?_, ?_⟩ <;> simp [cops, cops', Op.Coalescing]
end Demo

/-! ## Sets -/

theorem set_coalesced_step {s s' : NoditSet K} (h : Ascending s.iter) (hc : Coalesced s.inner.iter) {op : SetOp I K}
    (hop : op.Coalescing) (hs : s.step op = .ok s') : Coalesced s'.inner.iter := by
  have hw := NoditSet.wf_iff.2 h
  rcases set_step_refines h op with ⟨-, he⟩ | ⟨hb, -⟩
  · rw [he] at hs; cases hs
  cases op with
  | insertMergeTouching k =>
    obtain ⟨m2, r, e1, e2, e3, e4⟩ := C10_insert_merge_touching hw k (not_not.1 hb) ()
    simp only [NoditSet.step, NoditSet.insertMergeTouching, bind, Except.bind, e1, pure, Except.pure] at hs
    cases hs
    by_cases hov : ∃ e ∈ s.inner.iter, Overlap e.1 k
    · rw [(e3 hov).2]; exact hc
    · simp only [not_exists, not_and] at hov
      obtain ⟨k', -, e5, -, e6⟩ := e4 hov
      exact coalesced_merge hw hc (k := k) (R := fun e => Touch e.1 k) (not_not.1 hb) (fun _ _ _ => rfl) e5 e6
        (fun e he hR _ => separated_of hR (hov e he))
  | insertMergeTouchingOrOverlapping k =>
    obtain ⟨m2, k', e1, -, e5, -, e6⟩ := C13_insert_merge_touching_or_overlapping hw k (not_not.1 hb) ()
    simp only [NoditSet.step, NoditSet.insertMergeTouchingOrOverlapping, bind, Except.bind, e1, pure, Except.pure] at hs
    cases hs
    exact coalesced_merge hw hc (k := k) (R := fun e => Touch e.1 k ∨ Overlap e.1 k) (not_not.1 hb) (fun _ _ _ => rfl) e5 e6
      (fun e he hR _ => separated_of (fun ht => hR (Or.inl ht)) (fun ho => hR (Or.inr ho)))
  | cut q =>
    obtain ⟨m2, out, e1, -⟩ := C08_cut_exact hw q (not_not.1 hb)
    simp only [NoditSet.step, NoditSet.cut, bind, Except.bind, e1, pure, Except.pure] at hs
    cases hs
    exact coalesced_cut hw hc (not_not.1 hb) e1
  | removeOverlapping q =>
    obtain ⟨m2, out, e1, -, -, -, e5⟩ := C07_remove_overlapping hw q (not_not.1 hb)
    simp only [NoditSet.step, NoditSet.removeOverlapping, bind, Except.bind, e1, pure, Except.pure] at hs
    cases hs
    exact coalesced_sub hc (fun e he => ((e5 e).1 he).1)
  | insertStrict | insertMergeOverlapping | insertOverwrite => exact hop.elim

/-- **C52**: after any history of `insert_merge_touching_or_overlapping`, `insert_merge_touching`, `cut` and
`remove_overlapping` the intervals of a set are exactly the maximal runs of its points. -/
theorem C52_set_intervals_are_maximal_runs (ops : List (SetOp I K)) (hops : ∀ op ∈ ops, op.Coalescing) (i : Interval I) :
    MaximalRun (fun p => p ∈ points ((NoditSet.new : NoditSet K).run ops)) i ↔
      ∃ k ∈ ((NoditSet.new : NoditSet K).run ops).iter, start k = i.start ∧ stop k = i.stop := by
  have key : ∀ (s : NoditSet K), Ascending s.iter → Coalesced s.inner.iter → Coalesced (s.run ops).inner.iter := by
    intro s hm hc
    induction ops generalizing s with
    | nil => exact hc
    | cons op ops ih =>
      rcases set_step_refines hm op with ⟨-, he⟩ | ⟨-, m', o, ho, hw, -⟩
      · simp only [NoditSet.run, he]; exact ih (fun o ho => hops o (by simp [ho])) s hm hc
      · simp only [NoditSet.run, ho]
        exact ih (fun o ho => hops o (by simp [ho])) m' hw (set_coalesced_step hm hc (hops op (by simp)) ho)
  have hA := (C22_set_invariant (K := K) ops).1
  have hc := key NoditSet.new (by simp [Ascending, NoditSet.new, NoditSet.iter, NoditMap.new, NoditMap.iter])
    (by simp [Coalesced, NoditSet.new, NoditMap.new, NoditMap.iter])
  generalize (NoditSet.new : NoditSet K).run ops = s at *
  have hw := NoditSet.wf_iff.2 hA
  have hpts : (fun p => p ∈ points s) = fun p => s.inner.getAtPoint p = .ok (some ()) := by
    funext p
    obtain ⟨r, e1, e2⟩ := NoditMap.spec_getAtPoint hw p
    refine propext ⟨?_, ?_⟩
    · rintro ⟨k, hk, hp⟩
      rw [e1, (e2 ()).2 ⟨(k, ()), NoditSet.mem_iter.1 hk, hp, rfl⟩]
    · intro hr
      rw [e1] at hr; cases hr
      obtain ⟨e, he, hp, -⟩ := (e2 ()).1 rfl
      exact ⟨e.1, NoditSet.mem_iter.2 he, hp⟩
  rw [hpts]
  constructor
  · intro hi
    obtain ⟨p, hp⟩ := hi.1
    obtain ⟨r, h1, h2⟩ := NoditMap.spec_getAtPoint hw p
    have hr := hi.2.1 p hp
    simp only [h1] at hr; cases hr
    obtain ⟨e, he, hpe, -⟩ := (h2 ()).1 rfl
    have := MaximalRun.unique hi (coalesced_maximal hw hc he) hp hpe
    subst this
    exact ⟨e.1, NoditSet.mem_iter.2 he, rfl, rfl⟩
  · rintro ⟨k, hk, h1, h2⟩
    have := coalesced_maximal hw hc (NoditSet.mem_iter.1 hk)
    simp only [h1, h2] at this
    exact this

omit [LawfulInterval I K] in
/-- **C52**: so with `Interval<I>` as interval type two sets with the same points compare equal. -/
theorem C52_set_canonical (ops ops' : List (SetOp I (Interval I))) (hops : ∀ op ∈ ops, op.Coalescing) (hops' : ∀ op ∈ ops', op.Coalescing)
    (heq : points ((NoditSet.new : NoditSet (Interval I)).run ops) = points ((NoditSet.new : NoditSet (Interval I)).run ops')) :
    (NoditSet.new : NoditSet (Interval I)).run ops = (NoditSet.new : NoditSet (Interval I)).run ops' := by
  have h1 := C52_set_intervals_are_maximal_runs ops hops
  have h2 := C52_set_intervals_are_maximal_runs ops' hops'
  have red : ∀ (l : List (Interval I)) (i : Interval I), (∃ k ∈ l, start k = i.start ∧ stop k = i.stop) ↔ i ∈ l := by
    intro l i; constructor
    · rintro ⟨k, hk, hs, ht⟩
      have : k = i := by cases k; cases i; simp only [start, stop] at hs ht; rw [hs, ht]
      rw [this] at hk; exact hk
    · intro he; exact ⟨i, he, rfl, rfl⟩
  simp only [red] at h1 h2
  have a1 := (C22_set_invariant (K := Interval I) ops).1
  have a2 := (C22_set_invariant (K := Interval I) ops').1
  generalize (NoditSet.new : NoditSet (Interval I)).run ops = s at *
  generalize (NoditSet.new : NoditSet (Interval I)).run ops' = s' at *
  have hw := NoditSet.wf_iff.2 a1
  have hw' := NoditSet.wf_iff.2 a2
  have := (wf_iff_chain.1 hw).ext (wf_iff_chain.1 hw') (fun e => by
    have e1 := h1 e.1
    have e2 := h2 e.1
    rw [heq, e2] at e1
    rw [NoditSet.mem_iter, NoditSet.mem_iter] at e1
    exact e1.symm)
  cases s with | mk m => cases s' with | mk m' => cases m; cases m'; exact congrArg _ (congrArg _ this)

namespace Demo
/-- a coalescing set history -/
def csops : List (SetOp U8 (Interval U8)) :=
  [.insertMergeTouchingOrOverlapping (iv 0 9), .insertMergeTouching (iv 10 12), .cut (iv 4 5), .insertMergeTouchingOrOverlapping (iv 20 30),
   .removeOverlapping (iv 25 25), .insertMergeTouchingOrOverlapping (iv 9 3)]
example : (NoditSet.new.run csops).iter = [iv 0 3, iv 6 12] ∧ ∀ op ∈ csops, op.Coalescing := by
  refine ⟨by decide, ?_⟩; simp [csops, SetOp.Coalescing]
end Demo
end
end Nodit
