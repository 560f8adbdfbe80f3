import Verif.Props.Repeating
import Verif.Props.Monotone
import Verif.Props.Demo
/-!
# C117: rolling back with what the calls returned

A client that keeps the results of its calls can undo them: what was cut out or removed is inserted again, what was inserted
is cut out again, in reverse order.
-/
set_option linter.unusedSectionVars false
namespace Nodit
open Spec PointType

namespace Spec
variable {I K V : Type} [PointType I] [IntervalType I K]

/-- The calls that undo `op`, known from its result alone. A client, models no lines of `/repo`; the calls are those of
`nodit/map.rs`. -/
def Op.undo : Op I K V → Res (Out K V) → List (Op I K V)
  | .insertStrict k _, .ok (.strict (.ok _)) => [.cut ⟨start k, stop k⟩]
  | .insertMergeTouching k _, .ok (.merge (.ok _)) | .insertMergeTouchingIfValuesEqual k _, .ok (.merge (.ok _)) =>
    [.cut ⟨start k, stop k⟩]
  | .insertOverwrite k _, .ok (.entries l) => .cut ⟨start k, stop k⟩ :: l.map (fun e => .insertStrict e.1 e.2)
  | .cut _, .ok (.entries l) | .removeOverlapping _, .ok (.entries l) => l.map (fun e => .insertStrict e.1 e.2)
  | _, _ => []

/-- The calls that undo a sequence of calls with the given results: the last one first. A client, models no lines of
`/repo`; the calls are those of `nodit/map.rs`. -/
def rollback : List (Op I K V) → List (Res (Out K V)) → List (Op I K V)
  | op :: ops, o :: os => rollback ops os ++ op.undo o
  | _, _ => []

/-- The changing calls whose result says what was there before: `insert_strict`, `insert_overwrite`, `cut`,
`remove_overlapping`; a merge with touching entries if these can only have had the inserted value; and all queries. A client,
models no lines of `/repo`; the calls are those of `nodit/map.rs`. -/
def Op.Reversible [BEq V] : Op I K V → Prop
  | .insertMergeTouchingIfValuesEqual _ v => ∀ w, (w == v) = true → w = v
  | .insertMergeTouching _ v => ∀ w, w = v
  | .insertMergeOverlapping _ _ | .insertMergeTouchingOrOverlapping _ _ | .overlappingMut _ _ | .getAtPointMut _ _ | .iterMut _ => False
  | _ => True

/-- Of these, those that never split an entry or join two. A client, models no lines of `/repo`; the calls are those of
`nodit/map.rs`. -/
def Op.Whole [BEq V] : Op I K V → Prop
  | .insertOverwrite _ _ | .cut _ | .insertMergeTouching _ _ | .insertMergeTouchingIfValuesEqual _ _ => False
  | op => op.Reversible
end Spec

section
variable {I K V : Type} [PointType I] [IntervalType I K] [LawfulPoint I] [LawfulInterval I K]

theorem map_run_append [BEq V] (m : NoditMap K V) (xs ys : List (Op I K V)) :
    m.run (xs ++ ys) = (((m.run xs).1.run ys).1, (m.run xs).2 ++ ((m.run xs).1.run ys).2) := by
  induction xs generalizing m with
  | nil => rfl
  | cons x xs ih =>
    simp only [List.cons_append, NoditMap.run]
    cases m.step x with
    | error p => simp only [ih]; rfl
    | ok r => simp only [ih]; rfl

/-- an answer of a call that was neither a panic nor a refusal -/
def Fine (o : Res (Out K V)) : Prop := ∃ out, o = .ok out ∧ ∀ v, out ≠ .strict (.error v)

/-- inserting entries that overlap neither each other nor what is there -/
theorem run_insert_all [BEq V] {m : NoditMap K V} (h : WF m.iter) {l : List (K × V)} (hl : WF l)
    (hd : ∀ e ∈ m.entrySet, ∀ d ∈ l, ¬ Overlap e.1 d.1) :
    ∃ m' os, m.run (l.map fun e => (.insertStrict e.1 e.2 : Op I K V)) = (m', os) ∧ WF m'.iter ∧
      m'.entrySet = m.entrySet ∪ {e | e ∈ l} ∧ ∀ o ∈ os, Fine o := by
  induction l generalizing m with
  | nil => exact ⟨m, [], rfl, h, by simp, by simp⟩
  | cons x l ih =>
    obtain ⟨k, v⟩ := x
    obtain ⟨m1, r, h1, h2, -, h4⟩ := NoditMap.spec_insertStrict h (hl.1 (k, v) (by simp)) v
    obtain ⟨h5, rfl⟩ := h4 (by
      rintro ⟨e, he, ho⟩
      exact hd e he (k, v) (by simp) ho)
    have hp := List.pairwise_cons.1 hl.2
    obtain ⟨m', os, e1, e2, e3, e4⟩ := ih h2 ⟨fun e he => hl.1 e (by simp [he]), hp.2⟩ (by
      intro e he d hdl ⟨p, hp1, hp2⟩
      rw [h5] at he
      rcases he with he | rfl
      · exact hd e he d (by simp [hdl]) ⟨p, hp1, hp2⟩
      · exact lt_irrefl _ (hp.1 d hdl p p hp1 hp2))
    refine ⟨m', .ok (.strict (.ok ())) :: os, ?_, e2, ?_, ?_⟩
    · simp only [List.map_cons, NoditMap.run, NoditMap.step, h1, bind, Except.bind, pure, Except.pure, NoditMap.errValue, e1]
    · rw [e3, h5]
      ext e
      simp only [Set.mem_union, Set.mem_singleton_iff, Set.mem_ofPred_eq, List.mem_cons]
      tauto
    · intro o ho
      rcases List.mem_cons.1 ho with rfl | ho
      · exact ⟨_, rfl, by simp⟩
      · exact e4 o ho

theorem cutReturned_holds {S : Set (K × V)} {f : I → Option V} (hf : Holds S f) {A : Type} [IntervalType I A] (q : A) (p : I) (v : V) :
    (∃ e ∈ CutReturned S q, Mem p e.1 ∧ e.2 = v) ↔ Mem p q ∧ f p = some v := by
  constructor
  · rintro ⟨e, ⟨d, hd, i, rfl, hi⟩, hp, rfl⟩
    have := (hi.2 p).1 (mem_ofInterval.1 hp)
    exact ⟨this.2, (hf p _).2 ⟨d, hd, this.1, rfl⟩⟩
  · rintro ⟨hq, hv⟩
    obtain ⟨d, hd, hp, rfl⟩ := (hf p _).1 hv
    have hi : Describes (⟨max (start d.1) (start q), min (stop d.1) (stop q)⟩ : Interval I) (fun p => Mem p d.1 ∧ Mem p q) := by
      refine ⟨⟨p, max_le hp.1 hq.1, le_min hp.2 hq.2⟩, fun x => ?_⟩
      show max (start d.1) (start q) ≤ x ∧ x ≤ min (stop d.1) (stop q) ↔ _
      simp only [Mem, max_le_iff, le_min_iff]
      tauto
    exact ⟨_, ⟨d, hd, _, rfl, hi⟩, mem_ofInterval.2 ((hi.2 p).2 ⟨hp, hq⟩), rfl⟩

theorem cutRemaining_holds {S : Set (K × V)} {f : I → Option V} (hf : Holds S f) {A : Type} [IntervalType I A] {q : A} (hq : Valid q)
    (p : I) (v : V) : (∃ e ∈ CutRemaining S q, Mem p e.1 ∧ e.2 = v) ↔ ¬ Mem p q ∧ f p = some v := by
  rw [hf]
  constructor
  · rintro ⟨e, he, hpe, rfl⟩
    rcases he with ⟨he, hno⟩ | ⟨d, hd, ho, i, rfl, hi | hi⟩
    · exact ⟨fun hp => hno ⟨p, hpe, hp⟩, e, he, hpe, rfl⟩
    · have := (hi.2 p).1 (mem_ofInterval.1 hpe)
      exact ⟨fun hp => lt_irrefl _ (this.2 p hp), d, hd, this.1, rfl⟩
    · have := (hi.2 p).1 (mem_ofInterval.1 hpe)
      exact ⟨fun hp => lt_irrefl _ (this.2 p hp), d, hd, this.1, rfl⟩
  · rintro ⟨hp, e, he, hpe, rfl⟩
    by_cases ho : Overlap e.1 q
    · have hq' := valid_iff.1 hq
      rcases lt_or_ge p (start q) with hlt | hge
      · obtain ⟨i, hi⟩ := exists_part_below ⟨p, hpe⟩ hq hpe ((forall_mem_lt hq' p).2 hlt)
        exact ⟨(ofInterval i, e.2), Or.inr ⟨e, he, ho, i, rfl, Or.inl hi⟩,
          mem_ofInterval.2 ((hi.2 p).2 ⟨hpe, (forall_mem_lt hq' p).2 hlt⟩), rfl⟩
      · have hgt : stop q < p := not_le.1 fun hle => hp ⟨hge, hle⟩
        obtain ⟨i, hi⟩ := exists_part_above ⟨p, hpe⟩ hq hpe ((forall_mem_gt hq' p).2 hgt)
        exact ⟨(ofInterval i, e.2), Or.inr ⟨e, he, ho, i, rfl, Or.inr hi⟩,
          mem_ofInterval.2 ((hi.2 p).2 ⟨hpe, (forall_mem_gt hq' p).2 hgt⟩), rfl⟩
    · exact ⟨e, Or.inl ⟨he, ho⟩, hpe, rfl⟩

theorem cutRemaining_within {S : Set (K × V)} {A : Type} [IntervalType I A] {q : A} {e : K × V} (he : e ∈ CutRemaining S q) :
    ∃ d ∈ S, d.2 = e.2 ∧ ∀ p : I, Mem p e.1 → Mem p d.1 := by
  rcases he with ⟨he, -⟩ | ⟨d, hd, ho, i, rfl, hi | hi⟩
  · exact ⟨e, he, rfl, fun _ h => h⟩
  · exact ⟨d, hd, rfl, fun p hp => ((hi.2 p).1 (mem_ofInterval.1 hp)).1⟩
  · exact ⟨d, hd, rfl, fun p hp => ((hi.2 p).1 (mem_ofInterval.1 hp)).1⟩

theorem cutReturned_within {S : Set (K × V)} {A : Type} [IntervalType I A] {q : A} {e : K × V} (he : e ∈ CutReturned S q) :
    ∃ d ∈ S, d.2 = e.2 ∧ ∀ p : I, Mem p e.1 → Mem p d.1 ∧ Mem p q := by
  obtain ⟨d, hd, i, rfl, hi⟩ := he
  exact ⟨d, hd, rfl, fun p hp => (hi.2 p).1 (mem_ofInterval.1 hp)⟩

/-- `m'` holds what `m` holds, its entries being parts of those of `m` -/
def Frag (m' m : NoditMap K V) : Prop :=
  WF m'.iter ∧ (∃ f : I → Option V, Holds m'.entrySet f ∧ Holds m.entrySet f) ∧
    ∀ e' ∈ m'.entrySet, ∃ e ∈ m.entrySet, e.2 = e'.2 ∧ ∀ p : I, Mem p e'.1 → Mem p e.1

theorem exists_holds {m : NoditMap K V} (h : WF m.iter) : ∃ f : I → Option V, Holds m.entrySet f := by
  refine ⟨fun p => ((NoditMap.spec_getAtPoint h p).choose), fun p v => (NoditMap.spec_getAtPoint h p).choose_spec.2 v⟩

theorem Frag.refl {m : NoditMap K V} (h : WF m.iter) : Frag m m := by
  obtain ⟨f, hf⟩ := exists_holds h
  exact ⟨h, ⟨f, hf, hf⟩, fun e he => ⟨e, he, rfl, fun _ hp => hp⟩⟩

theorem entries_disjoint {m : NoditMap K V} (h : WF m.iter) :
    ∀ e ∈ m.entrySet, ∀ d ∈ m.entrySet, Overlap e.1 d.1 → e = d := by
  intro e he d hd ⟨p, hp1, hp2⟩
  by_contra hne
  have hpw := List.pairwise_iff_getElem.1 h.2
  obtain ⟨i, hi, rfl⟩ := List.getElem_of_mem he
  obtain ⟨j, hj, rfl⟩ := List.getElem_of_mem hd
  rcases Nat.lt_trichotomy i j with hij | rfl | hij
  · exact lt_irrefl _ (hpw i j hi hj hij p p hp1 hp2)
  · exact hne rfl
  · exact lt_irrefl _ (hpw j i hj hi hij p p hp2 hp1)

/-- cutting out again what was merged with touching entries of the same value -/
theorem undo_merge [BEq V] {m : NoditMap K V} (h : WF m.iter) {k r : K} (hk : Valid k) {v : V} {C : K × V → Prop}
    (hc : ¬ ∃ e ∈ m.entrySet, Overlap e.1 k) (hC : ∀ e ∈ m.entrySet, C e → Touch e.1 k ∧ e.2 = v)
    (hr : MergedKey k {e | e ∈ m.entrySet ∧ C e} r) {m1 : NoditMap K V}
    (h1 : m1.entrySet = {e | e ∈ m.entrySet ∧ ¬ C e} ∪ {(r, v)}) {m1' : NoditMap K V} (hF : Frag (I := I) m1' m1) :
    ∃ m' os, m1'.run [(.cut ⟨start k, stop k⟩ : Op I K V)] = (m', os) ∧ Frag (I := I) m' m ∧ ∀ o ∈ os, Fine o := by
  obtain ⟨f, hf⟩ := exists_holds h
  obtain ⟨w1, ⟨f1, a1, a2⟩, frag⟩ := hF
  have hki : Valid (⟨start k, stop k⟩ : Interval I) := hk
  obtain ⟨m', out, c1, c2, c3, c4⟩ := NoditMap.spec_cut w1 hki
  refine ⟨m', [.ok (.entries out)], ?_, ⟨c2, ⟨f, ?_, hf⟩, ?_⟩, ?_⟩
  · simp only [NoditMap.run, NoditMap.step, c1, bind, Except.bind, pure, Except.pure]
  · intro p w
    rw [c3, cutRemaining_holds a1 hki, a2, h1]
    constructor
    · intro hw
      obtain ⟨e, he, hp, rfl⟩ := (hf p w).1 hw
      refine ⟨fun hpk => hc ⟨e, he, p, hp, hpk⟩, ?_⟩
      by_cases hCe : C e
      · exact ⟨(r, v), Or.inr rfl, (hr.1 p).2 (Or.inr ⟨e, ⟨he, hCe⟩, hp⟩), (hC e he hCe).2.symm⟩
      · exact ⟨e, Or.inl ⟨he, hCe⟩, hp, rfl⟩
    · rintro ⟨hpk, e, ⟨he, -⟩ | rfl, hp, rfl⟩
      · exact (hf p _).2 ⟨e, he, hp, rfl⟩
      · rcases (hr.1 p).1 hp with hp | ⟨t, ⟨ht, hCt⟩, hp⟩
        · exact absurd hp hpk
        · exact (hf p _).2 ⟨t, ht, hp, (hC t ht hCt).2⟩
  · intro e he
    obtain ⟨p, hp⟩ := c2.1 e he
    rw [c3] at he
    obtain ⟨d, hd, e1, e2⟩ := cutRemaining_within he
    obtain ⟨d', hd', e3, e4⟩ := frag d hd
    rw [h1] at hd'
    rcases hd' with ⟨hd', -⟩ | rfl
    · exact ⟨d', hd', e3.trans e1, fun p hp => e4 p (e2 p hp)⟩
    · have hno := cutRemaining_not_overlap he
      have hpart : ∀ p : I, Mem p e.1 → ∃ t, (t ∈ m.entrySet ∧ C t) ∧ Mem p t.1 := by
        intro p hp
        rcases (hr.1 p).1 (e4 p (e2 p hp)) with hpk | ht
        · exact absurd ⟨p, hp, hpk⟩ hno
        · exact ht
      obtain ⟨t, ⟨ht, hCt⟩, hpt⟩ := hpart p hp
      refine ⟨t, ht, ((hC t ht hCt).2.trans e3).trans e1, fun x hx => ?_⟩
      obtain ⟨t', ⟨ht', hCt'⟩, hxt⟩ := hpart x hx
      have hkk := valid_iff.1 hk
      have side : ∀ {t : K × V} {x : I}, t ∈ m.entrySet → Mem x t.1 → (x < start k → stop t.1 < start k) ∧ (stop k < x → stop k < start t.1) := by
        intro t x ht hx
        refine ⟨fun hlt => not_le.1 fun hle => hc ⟨t, ht, start k, ⟨le_trans hx.1 hlt.le, hle⟩, le_refl _, hkk⟩,
          fun hlt => not_le.1 fun hle => hc ⟨t, ht, stop k, ⟨hle, le_trans hlt.le hx.2⟩, hkk, le_refl _⟩⟩
      have out : ∀ {x : I}, Mem x e.1 → x < start k ∨ stop k < x := by
        intro x hx
        by_contra hcon
        rw [not_or, not_lt, not_lt] at hcon
        exact hno ⟨x, hx, hcon.1, hcon.2⟩
      have same : t = t' := by
        rcases out hp with h1 | h1 <;> rcases out hx with h2 | h2
        · have s1 := (side ht hpt).1 h1
          have s2 := (side ht' hxt).1 h2
          have key : ∀ {a b : K × V}, Touch a.1 k → stop b.1 < start k → ¬ stop a.1 < stop b.1 := by
            intro a b ha hb hlt
            exact (ha.2 (stop b.1)).1 ⟨fun y hy => lt_of_le_of_lt hy.2 hlt, fun y hy => lt_of_lt_of_le hb hy.1⟩
          have heq : stop t.1 = stop t'.1 :=
            le_antisymm (not_lt.1 (key (hC t' ht' hCt').1 s1)) (not_lt.1 (key (hC t ht hCt).1 s2))
          exact entries_disjoint h t ht t' ht' ⟨stop t.1, ⟨le_trans hpt.1 hpt.2, le_refl _⟩, heq ▸ le_trans hxt.1 hxt.2, heq ▸ le_refl _⟩
        · exact absurd ⟨start k, ⟨le_trans hp.1 h1.le, le_trans hkk (le_trans h2.le hx.2)⟩, le_refl _, hkk⟩ hno
        · exact absurd ⟨start k, ⟨le_trans hx.1 h2.le, le_trans hkk (le_trans h1.le hp.2)⟩, le_refl _, hkk⟩ hno
        · have s1 := (side ht hpt).2 h1
          have s2 := (side ht' hxt).2 h2
          have key : ∀ {a b : K × V}, Touch a.1 k → stop k < start b.1 → ¬ start b.1 < start a.1 := by
            intro a b ha hb hlt
            exact (ha.2 (start b.1)).2 ⟨fun y hy => lt_of_le_of_lt hy.2 hb, fun y hy => lt_of_lt_of_le hlt hy.1⟩
          have heq : start t.1 = start t'.1 :=
            le_antisymm (not_lt.1 (key (hC t ht hCt).1 s2)) (not_lt.1 (key (hC t' ht' hCt').1 s1))
          exact entries_disjoint h t ht t' ht' ⟨start t.1, ⟨le_refl _, le_trans hpt.1 hpt.2⟩, heq ▸ le_refl _, heq ▸ le_trans hxt.1 hxt.2⟩
      exact same ▸ hxt
  · intro o ho
    rw [List.mem_singleton] at ho
    exact ⟨_, ho, by simp⟩

/-- the undoing calls undo the call -/
theorem undo_step [BEq V] {m : NoditMap K V} (h : WF m.iter) {op : Op I K V} (hop : op.Reversible) (hb : ¬ op.Bad)
    {m1 : NoditMap K V} {o : Out K V} (hs : SpecOp m.entrySet op m1.entrySet o) {m1' : NoditMap K V}
    (hF : Frag (I := I) m1' m1) :
    ∃ m' os, m1'.run (op.undo (.ok o)) = (m', os) ∧ Frag (I := I) m' m ∧ ∀ o ∈ os, Fine o := by
  obtain ⟨f, hf⟩ := exists_holds h
  obtain ⟨w1, ⟨f1, a1, a2⟩, frag⟩ := hF
  have same : ∀ {o : Out K V}, m1.entrySet = m.entrySet → op.undo (.ok o) = [] →
      ∃ m' os, m1'.run (op.undo (.ok o)) = (m', os) ∧ Frag (I := I) m' m ∧ ∀ o ∈ os, Fine o := by
    intro o he hu
    rw [hu]
    exact ⟨m1', [], rfl, ⟨w1, ⟨f1, a1, he ▸ a2⟩, he ▸ frag⟩, by simp⟩
  cases op with
  | insertMergeOverlapping _ _ | insertMergeTouchingOrOverlapping _ _ | overlappingMut _ _ | getAtPointMut _ _ | iterMut _ =>
    exact hop.elim
  | insertMergeTouching k v =>
    by_cases hc : ∃ e ∈ m.entrySet, Overlap e.1 k
    · obtain ⟨h1, rfl⟩ := hs.1 hc
      exact same h1 rfl
    · obtain ⟨r, hr, h1, rfl⟩ := hs.2 hc
      exact undo_merge h (not_not.1 hb) hc (fun e he ht => ⟨ht, hop e.2⟩) hr h1 ⟨w1, ⟨f1, a1, a2⟩, frag⟩
  | insertMergeTouchingIfValuesEqual k v =>
    by_cases hc : ∃ e ∈ m.entrySet, Overlap e.1 k
    · obtain ⟨h1, rfl⟩ := hs.1 hc
      exact same h1 rfl
    · obtain ⟨r, hr, h1, rfl⟩ := hs.2 hc
      exact undo_merge h (not_not.1 hb) hc (fun e he ht => ⟨ht.1, hop e.2 ht.2⟩) hr h1 ⟨w1, ⟨f1, a1, a2⟩, frag⟩
  | insertStrict k v =>
    have hk : Valid k := not_not.1 hb
    by_cases hc : ∃ e ∈ m.entrySet, Overlap e.1 k
    · obtain ⟨h1, rfl⟩ := hs.1 hc
      exact same h1 rfl
    · obtain ⟨h1, rfl⟩ := hs.2 hc
      have hki : Valid (⟨start k, stop k⟩ : Interval I) := hk
      obtain ⟨m', out, c1, c2, c3, c4⟩ := NoditMap.spec_cut w1 hki
      refine ⟨m', [.ok (.entries out)], ?_, ⟨c2, ⟨f, ?_, hf⟩, ?_⟩, ?_⟩
      · simp only [Op.undo, NoditMap.run, NoditMap.step, c1, bind, Except.bind, pure, Except.pure]
      · intro p w
        rw [c3, cutRemaining_holds a1 hki, a2, h1]
        constructor
        · intro hw
          obtain ⟨e, he, hp, rfl⟩ := (hf p w).1 hw
          exact ⟨fun hpk => hc ⟨e, he, p, hp, hpk⟩, e, Or.inl he, hp, rfl⟩
        · rintro ⟨hpk, e, he | rfl, hp, rfl⟩
          · exact (hf p _).2 ⟨e, he, hp, rfl⟩
          · exact absurd hp hpk
      · intro e he
        rw [c3] at he
        obtain ⟨d, hd, e1, e2⟩ := cutRemaining_within he
        obtain ⟨d', hd', e3, e4⟩ := frag d hd
        obtain ⟨p, hp⟩ := c2.1 e (by show e ∈ m'.entrySet; rw [c3]; exact he)
        rw [h1] at hd'
        rcases hd' with hd' | rfl
        · exact ⟨d', hd', e3.trans e1, fun p hp => e4 p (e2 p hp)⟩
        · exact absurd ⟨p, hp, e4 p (e2 p hp)⟩ (cutRemaining_not_overlap he)
      · intro o ho
        rw [List.mem_singleton] at ho
        exact ⟨_, ho, by simp⟩
  | insertOverwrite k v =>
    have hk : Valid k := not_not.1 hb
    obtain ⟨l, hl, h1, rfl⟩ := hs
    have hki : Valid (⟨start k, stop k⟩ : Interval I) := hk
    obtain ⟨mc, out, c1, c2, c3, c4⟩ := NoditMap.spec_cut w1 hki
    obtain ⟨m', os, r1, r2, r3, r4⟩ := run_insert_all (I := I) c2 hl.1 (by
      intro e he d hd ⟨p, hp1, hp2⟩
      rw [c3] at he
      obtain ⟨_, _, _, hq2⟩ := cutReturned_within ((hl.2 d).1 hd)
      exact cutRemaining_not_overlap he ⟨p, hp1, (hq2 p hp2).2⟩)
    refine ⟨m', .ok (.entries out) :: os, ?_, ⟨r2, ⟨f, ?_, hf⟩, ?_⟩, ?_⟩
    · simp only [Op.undo, NoditMap.run, NoditMap.step, c1, bind, Except.bind, pure, Except.pure, r1]
    · intro p w
      have hu : (∃ e ∈ m'.entrySet, Mem p e.1 ∧ e.2 = w) ↔
          (∃ e ∈ CutRemaining m1'.entrySet (⟨start k, stop k⟩ : Interval I), Mem p e.1 ∧ e.2 = w) ∨
          ∃ e ∈ CutReturned m.entrySet k, Mem p e.1 ∧ e.2 = w := by
        rw [r3, c3]
        simp only [Set.mem_union, Set.mem_ofPred_eq, hl.2, or_and_right, exists_or]
      rw [hu, cutRemaining_holds a1 hki, cutReturned_holds hf, a2, h1]
      have hrem := cutRemaining_holds hf hk p w
      constructor
      · intro hw
        by_cases hpk : Mem p k
        · exact Or.inr ⟨hpk, hw⟩
        · obtain ⟨e, he, hp⟩ := hrem.2 ⟨hpk, hw⟩
          exact Or.inl ⟨hpk, e, Or.inl he, hp⟩
      · rintro (⟨hpk, e, he | rfl, hp, rfl⟩ | ⟨-, hw⟩)
        · exact (hrem.1 ⟨e, he, hp, rfl⟩).2
        · exact absurd hp hpk
        · exact hw
    · intro e he
      rw [r3] at he
      rcases he with he | he
      · obtain ⟨p, hp⟩ := c2.1 e he
        rw [c3] at he
        obtain ⟨d, hd, e1, e2⟩ := cutRemaining_within he
        obtain ⟨d', hd', e3, e4⟩ := frag d hd
        rw [h1] at hd'
        rcases hd' with hd' | rfl
        · obtain ⟨d2, hd2, e5, e6⟩ := cutRemaining_within hd'
          exact ⟨d2, hd2, (e5.trans e3).trans e1, fun p hp => e6 p (e4 p (e2 p hp))⟩
        · exact absurd ⟨p, hp, e4 p (e2 p hp)⟩ (cutRemaining_not_overlap he)
      · obtain ⟨d, hd, e1, e2⟩ := cutReturned_within ((hl.2 e).1 he)
        exact ⟨d, hd, e1, fun p hp => (e2 p hp).1⟩
    · intro o ho
      rcases List.mem_cons.1 ho with rfl | ho
      · exact ⟨_, rfl, by simp⟩
      · exact r4 o ho
  | cut q =>
    have hq : Valid q := not_not.1 hb
    obtain ⟨l, hl, h1, rfl⟩ := hs
    obtain ⟨m', os, r1, r2, r3, r4⟩ := run_insert_all (I := I) w1 hl.1 (by
      intro e he d hd ⟨p, hp1, hp2⟩
      obtain ⟨_, _, _, hq2⟩ := cutReturned_within ((hl.2 d).1 hd)
      obtain ⟨e', he', -, e2⟩ := frag e he
      rw [h1] at he'
      exact cutRemaining_not_overlap he' ⟨p, e2 p hp1, (hq2 p hp2).2⟩)
    refine ⟨m', os, r1, ⟨r2, ⟨f, ?_, hf⟩, ?_⟩, r4⟩
    · intro p w
      have hu : (∃ e ∈ m'.entrySet, Mem p e.1 ∧ e.2 = w) ↔
          (∃ e ∈ m1'.entrySet, Mem p e.1 ∧ e.2 = w) ∨ ∃ e ∈ CutReturned m.entrySet q, Mem p e.1 ∧ e.2 = w := by
        rw [r3]
        simp only [Set.mem_union, Set.mem_ofPred_eq, hl.2, or_and_right, exists_or]
      rw [hu, ← a1, a2, h1, cutReturned_holds hf, cutRemaining_holds hf hq]
      tauto
    · intro e he
      rw [r3] at he
      rcases he with he | he
      · obtain ⟨d', hd', e3, e4⟩ := frag e he
        rw [h1] at hd'
        obtain ⟨d2, hd2, e5, e6⟩ := cutRemaining_within hd'
        exact ⟨d2, hd2, e5.trans e3, fun p hp => e6 p (e4 p hp)⟩
      · obtain ⟨d, hd, e1, e2⟩ := cutReturned_within ((hl.2 e).1 he)
        exact ⟨d, hd, e1, fun p hp => (e2 p hp).1⟩
  | removeOverlapping q =>
    obtain ⟨l, hl, h1, rfl⟩ := hs
    have hdis := entries_disjoint h
    obtain ⟨m', os, r1, r2, r3, r4⟩ := run_insert_all (I := I) w1 hl.1 (by
      intro e he d hd ⟨p, hp1, hp2⟩
      obtain ⟨hd1, hd2⟩ := (hl.2 d).1 hd
      obtain ⟨e', he', -, e2⟩ := frag e he
      rw [h1] at he'
      exact he'.2 (hdis e' he'.1 d hd1 ⟨p, e2 p hp1, hp2⟩ ▸ hd2))
    refine ⟨m', os, r1, ⟨r2, ⟨f, ?_, hf⟩, ?_⟩, r4⟩
    · intro p w
      have hu : (∃ e ∈ m'.entrySet, Mem p e.1 ∧ e.2 = w) ↔
          (∃ e ∈ m1'.entrySet, Mem p e.1 ∧ e.2 = w) ∨ ∃ e ∈ {e | e ∈ m.entrySet ∧ Overlap e.1 q}, Mem p e.1 ∧ e.2 = w := by
        rw [r3]
        simp only [Set.mem_union, Set.mem_ofPred_eq, hl.2, or_and_right, exists_or]
      rw [hu, ← a1, a2, h1, hf]
      constructor
      · rintro ⟨e, he, hp⟩
        by_cases ho : Overlap e.1 q
        · exact Or.inr ⟨e, ⟨he, ho⟩, hp⟩
        · exact Or.inl ⟨e, ⟨he, ho⟩, hp⟩
      · rintro (⟨e, he, hp⟩ | ⟨e, he, hp⟩)
        · exact ⟨e, he.1, hp⟩
        · exact ⟨e, he.1, hp⟩
    · intro e he
      rw [r3] at he
      rcases he with he | he
      · obtain ⟨d', hd', e3, e4⟩ := frag e he
        rw [h1] at hd'
        exact ⟨d', hd'.1, e3, e4⟩
      · exact ⟨e, ((hl.2 e).1 he).1, rfl, fun _ hp => hp⟩
  | overlapping q | gapsUntrimmed q | gapsTrimmed q | iter | len =>
    obtain ⟨l, -, h1, rfl⟩ := hs
    exact same h1 rfl
  | overlaps q | containsInterval q | getAtPoint p | containsPoint p | isEmpty | firstKeyValue | lastKeyValue =>
    obtain ⟨b, -, h1, rfl⟩ := hs
    exact same h1 rfl
  | getKeyValueAtPoint p =>
    obtain ⟨b, -, -, h1, rfl⟩ := hs
    exact same h1 rfl

theorem rollback_frag [BEq V] {m : NoditMap K V} (h : WF m.iter) (ops : List (Op I K V)) (hops : ∀ op ∈ ops, op.Reversible) :
    ∃ m' os, (m.run ops).1.run (rollback ops (m.run ops).2) = (m', os) ∧ Frag (I := I) m' m ∧ ∀ o ∈ os, Fine o := by
  induction ops generalizing m with
  | nil => exact ⟨m, [], rfl, Frag.refl h, by simp⟩
  | cons op ops ih =>
    have hops' : ∀ op ∈ ops, op.Reversible := fun x hx => hops x (by simp [hx])
    rcases NoditMap.step_refines h op with ⟨hb, hs⟩ | ⟨hb, m1, o, hs, w1, hsp⟩
    · obtain ⟨m', os, e1, e2, e3⟩ := ih h hops'
      refine ⟨m', os, ?_, e2, e3⟩
      simp only [NoditMap.run, hs, rollback]
      have : op.undo (.error .invalidInterval) = [] := by cases op <;> rfl
      rw [this, List.append_nil, e1]
    · obtain ⟨m1', os1, e1, e2, e3⟩ := ih w1 hops'
      obtain ⟨m', os2, f1, f2, f3⟩ := undo_step h (hops op (by simp)) hb hsp e2
      refine ⟨m', os1 ++ os2, ?_, f2, ?_⟩
      · simp only [NoditMap.run, hs, rollback, map_run_append, e1, f1]
      · intro o ho
        rcases List.mem_append.1 ho with ho | ho
        · exact e3 o ho
        · exact f3 o ho

/-- **C117**: after any sequence of `insert_strict`, `insert_overwrite`, `cut`, `remove_overlapping`,
`insert_merge_touching_if_values_equal` (if equal values are the same) and queries, with valid arguments or not, the calls `rollback` makes of their results restore the map: every point has the value it had before, every
entry is a part of an entry that was there before, and no call of the rollback panics or is refused. -/
theorem C117_rollback [BEq V] {m m1 m' : NoditMap K V} {os us : List (Res (Out K V))} (h : WF m.iter) (ops : List (Op I K V))
    (hops : ∀ op ∈ ops, op.Reversible) (h1 : m.run ops = (m1, os)) (h2 : m1.run (rollback ops os) = (m', us)) :
    (∀ p : I, m'.getAtPoint p = m.getAtPoint p) ∧
    (∀ e' ∈ m'.iter, ∃ e ∈ m.iter, e.2 = e'.2 ∧ ∀ p : I, Mem p e'.1 → Mem p e.1) ∧
    ∀ u ∈ us, ∃ out, u = .ok out ∧ ∀ v, out ≠ .strict (.error v) := by
  obtain ⟨n, vs, e1, ⟨w, ⟨f, f1, f2⟩, fr⟩, e3⟩ := rollback_frag h ops hops
  rw [h1] at e1
  dsimp only at e1
  rw [h2] at e1
  cases e1
  refine ⟨fun p => ?_, fr, e3⟩
  obtain ⟨r, a1, a2⟩ := NoditMap.spec_getAtPoint w p
  obtain ⟨r', b1, b2⟩ := NoditMap.spec_getAtPoint h p
  rw [a1, b1]
  congr 1
  refine Option.ext fun v => ?_
  rw [show (r = some v ↔ r' = some v) ↔ _ from Iff.rfl]
  rw [a2, b2, ← f1, ← f2]

theorem undo_exact [BEq V] {m : NoditMap K V} (h : WF m.iter) {op : Op I K V} (hop : op.Whole) (hb : ¬ op.Bad)
    {m1 : NoditMap K V} (w1 : WF m1.iter) {o : Out K V} (hs : SpecOp m.entrySet op m1.entrySet o) :
    (m1.run (op.undo (.ok o))).1 = m := by
  have same : ∀ {o : Out K V}, m1.entrySet = m.entrySet → op.undo (.ok o) = [] → (m1.run (op.undo (.ok o))).1 = m := by
    intro o he hu
    rw [hu]
    exact NoditMap.ext_entries w1 h (fun e => Set.ext_iff.1 he e)
  cases op with
  | insertMergeTouching _ _ | insertMergeOverlapping _ _ | insertMergeTouchingOrOverlapping _ _
  | insertMergeTouchingIfValuesEqual _ _ | overlappingMut _ _ | getAtPointMut _ _ | iterMut _ | insertOverwrite _ _ | cut _ =>
    exact hop.elim
  | insertStrict k v =>
    have hk : Valid k := not_not.1 hb
    by_cases hc : ∃ e ∈ m.entrySet, Overlap e.1 k
    · obtain ⟨h1, rfl⟩ := hs.1 hc
      exact same h1 rfl
    · obtain ⟨h1, rfl⟩ := hs.2 hc
      have hki : Valid (⟨start k, stop k⟩ : Interval I) := hk
      obtain ⟨m', out, c1, c2, c3, c4⟩ := NoditMap.spec_cut w1 hki
      simp only [Op.undo, NoditMap.run, NoditMap.step, c1, bind, Except.bind, pure, Except.pure]
      refine NoditMap.ext_entries c2 h (Set.ext_iff.1 (c3.trans ?_))
      ext e
      rw [h1]
      constructor
      · rintro (⟨he | rfl, hno⟩ | ⟨d, hd | rfl, ho, i, rfl, hi⟩)
        · exact he
        · exact absurd (show Overlap _ _ from hk.imp fun p hp => ⟨hp, hp⟩) hno
        · exact absurd ⟨d, hd, ho⟩ hc
        · rcases hi with ⟨⟨p, hp⟩, hi⟩ | ⟨⟨p, hp⟩, hi⟩
          · exact absurd (((hi p).1 hp).2 p ((hi p).1 hp).1) (lt_irrefl _)
          · exact absurd (((hi p).1 hp).2 p ((hi p).1 hp).1) (lt_irrefl _)
      · intro he
        exact Or.inl ⟨Or.inl he, fun ho => hc ⟨e, he, ho⟩⟩
  | removeOverlapping q =>
    obtain ⟨l, hl, h1, rfl⟩ := hs
    obtain ⟨m', os, r1, r2, r3, r4⟩ := run_insert_all (I := I) w1 hl.1 (by
      intro e he d hd ho
      obtain ⟨hd1, hd2⟩ := (hl.2 d).1 hd
      rw [h1] at he
      exact he.2 (entries_disjoint h e he.1 d hd1 ho ▸ hd2))
    simp only [Op.undo, r1]
    refine NoditMap.ext_entries r2 h (Set.ext_iff.1 (r3.trans ?_))
    rw [h1]
    ext e
    simp only [Set.mem_union, Set.mem_ofPred_eq, hl.2]
    tauto
  | overlapping q | gapsUntrimmed q | gapsTrimmed q | iter | len =>
    obtain ⟨l, -, h1, rfl⟩ := hs
    exact same h1 rfl
  | overlaps q | containsInterval q | getAtPoint p | containsPoint p | isEmpty | firstKeyValue | lastKeyValue =>
    obtain ⟨b, -, h1, rfl⟩ := hs
    exact same h1 rfl
  | getKeyValueAtPoint p =>
    obtain ⟨b, -, -, h1, rfl⟩ := hs
    exact same h1 rfl

/-- **C117**, exactly: when only `insert_strict`, `remove_overlapping` and queries were called, no entry is split, and the
rollback gives back the very same map. -/
theorem C117_exact [BEq V] {m : NoditMap K V} (h : WF m.iter) (ops : List (Op I K V)) (hops : ∀ op ∈ ops, op.Whole) :
    ((m.run ops).1.run (rollback ops (m.run ops).2)).1 = m := by
  induction ops generalizing m with
  | nil => rfl
  | cons op ops ih =>
    have hops' : ∀ op ∈ ops, op.Whole := fun x hx => hops x (by simp [hx])
    rcases NoditMap.step_refines h op with ⟨hb, hs⟩ | ⟨hb, m1, o, hs, w1, hsp⟩
    · have : op.undo (.error .invalidInterval) = [] := by cases op <;> rfl
      simp only [NoditMap.run, hs, rollback, this, List.append_nil]
      exact ih h hops'
    · have := ih w1 hops'
      simp only [NoditMap.run, hs, rollback, map_run_append]
      rw [this]
      exact undo_exact h (hops op (by simp)) hb w1 hsp

/-- two maps with one entry `2..=4` of different values -/
theorem irreversible_of (restore : NoditMap (Interval Demo.U8) Nat × List (Res (Out (Interval Demo.U8) Nat)) →
      NoditMap (Interval Demo.U8) Nat) (op : Op Demo.U8 (Interval Demo.U8) Nat)
    (h : (NoditMap.run ⟨[(Demo.iv 2 4, 1)]⟩ [op]) = NoditMap.run ⟨[(Demo.iv 2 4, 2)]⟩ [op]) :
    ∃ m : NoditMap (Interval Demo.U8) Nat, WF (I := Demo.U8) m.iter ∧
      ∃ p : Demo.U8, (restore (m.run [op])).getAtPoint p ≠ m.getAtPoint p := by
  have hw : ∀ v : Nat, WF (I := Demo.U8) (NoditMap.iter ⟨[(Demo.iv 2 4, v)]⟩) := by
    intro v
    refine ⟨fun e he => ?_, List.pairwise_singleton _ _⟩
    rw [List.mem_singleton.1 (show e ∈ [(Demo.iv 2 4, v)] from he)]
    exact valid_iff.2 (by show Demo.u8 2 ≤ Demo.u8 4; decide)
  by_cases h1 : (restore (NoditMap.run ⟨[(Demo.iv 2 4, 1)]⟩ [op])).getAtPoint (Demo.u8 3) =
      NoditMap.getAtPoint ⟨[(Demo.iv 2 4, 1)]⟩ (Demo.u8 3)
  · refine ⟨_, hw 2, Demo.u8 3, fun h2 => ?_⟩
    rw [← h, h1] at h2
    exact absurd h2 (by decide)
  · exact ⟨_, hw 1, Demo.u8 3, h1⟩

/-- **C117**, what cannot be rolled back: nothing that is computed from the result of an `insert_merge_touching`,
`insert_merge_overlapping` or `insert_merge_touching_or_overlapping` and the map after it - by no client whatsoever - always
has the values the map had before it. -/
theorem C117_merging_is_irreversible (restore : NoditMap (Interval Demo.U8) Nat × List (Res (Out (Interval Demo.U8) Nat)) →
      NoditMap (Interval Demo.U8) Nat) (merge : Interval Demo.U8 → Nat → Op Demo.U8 (Interval Demo.U8) Nat)
    (hm : merge = .insertMergeTouching ∨ merge = .insertMergeOverlapping ∨ merge = .insertMergeTouchingOrOverlapping) :
    ∃ m : NoditMap (Interval Demo.U8) Nat, WF (I := Demo.U8) m.iter ∧
      ∃ k v, ∃ p : Demo.U8, (restore (m.run [merge k v])).getAtPoint p ≠ m.getAtPoint p := by
  have key : ∃ k v, NoditMap.run ⟨[(Demo.iv 2 4, 1)]⟩ [merge k v] = NoditMap.run ⟨[(Demo.iv 2 4, 2)]⟩ [merge k v] := by
    rcases hm with rfl | rfl | rfl
    · exact ⟨Demo.iv 5 7, 5, rfl⟩
    · exact ⟨Demo.iv 1 7, 5, rfl⟩
    · exact ⟨Demo.iv 5 7, 5, rfl⟩
  obtain ⟨k, v, hkv⟩ := key
  obtain ⟨m, hw, p, hp⟩ := irreversible_of restore _ hkv
  exact ⟨m, hw, k, v, p, hp⟩

end

/-! ## `NoditSet` -/

namespace Spec
variable {I K : Type} [PointType I] [IntervalType I K]

/-- The calls that undo a `NoditSet` call, known from its result alone. A client, models no lines of `/repo`; the calls are
those of `nodit/set.rs`. -/
def SetCall.undo : SetCall I K → Res (SetOut K) → List (SetCall I K)
  | .insertStrict k, .ok (.strict (.ok _)) => [.cut ⟨start k, stop k⟩]
  | .insertMergeTouching k, .ok (.merge (.ok _)) => [.cut ⟨start k, stop k⟩]
  | .insertOverwrite k, .ok (.keys l) => .cut ⟨start k, stop k⟩ :: l.map .insertStrict
  | .cut _, .ok (.keys l) | .removeOverlapping _, .ok (.keys l) => l.map .insertStrict
  | _, _ => []

/-- The calls that undo a sequence of `NoditSet` calls with the given results: the last one first. A client, models no lines
of `/repo`; the calls are those of `nodit/set.rs`. -/
def setRollback : List (SetCall I K) → List (Res (SetOut K)) → List (SetCall I K)
  | op :: ops, o :: os => setRollback ops os ++ op.undo o
  | _, _ => []

/-- All calls but those that merge what overlaps. A client, models no lines of `/repo`; the calls are those of
`nodit/set.rs`. -/
def SetCall.Reversible : SetCall I K → Prop
  | .insertMergeOverlapping _ | .insertMergeTouchingOrOverlapping _ => False
  | _ => True

/-- Of these, those that never split an interval or join two. A client, models no lines of `/repo`; the calls are those of
`nodit/set.rs`. -/
def SetCall.Whole : SetCall I K → Prop
  | .insertOverwrite _ | .cut _ | .insertMergeTouching _ => False
  | op => op.Reversible
end Spec

section
variable {I K : Type} [PointType I] [IntervalType I K] [LawfulPoint I] [LawfulInterval I K]

theorem undo_toMap (m : NoditMap K Unit) (op : SetCall I K) :
    (op.undo (((m.step op.toMap).map Prod.snd).map SetOut.ofMap)).map SetCall.toMap =
      op.toMap.undo ((m.step op.toMap).map Prod.snd) := by
  cases op with
  | insertStrict k =>
    simp only [SetCall.toMap, NoditMap.step, bind, Except.bind, pure, Except.pure]
    cases m.insertStrict k () with
    | error p => rfl
    | ok r =>
      obtain ⟨m1, r⟩ := r
      cases r <;> rfl
  | insertMergeTouching k =>
    simp only [SetCall.toMap, NoditMap.step, bind, Except.bind, pure, Except.pure]
    cases m.insertMergeTouching k () with
    | error p => rfl
    | ok r =>
      obtain ⟨m1, r⟩ := r
      cases r <;> rfl
  | insertOverwrite k =>
    simp only [SetCall.toMap, NoditMap.step, bind, Except.bind, pure, Except.pure]
    cases m.insertOverwrite k () with
    | error p => rfl
    | ok r =>
      simp only [Except.map, SetOut.ofMap, SetCall.undo, Op.undo, List.map_cons, List.map_map, SetCall.toMap]
      rfl
  | cut q =>
    simp only [SetCall.toMap, NoditMap.step, bind, Except.bind, pure, Except.pure]
    cases m.cut q with
    | error p => rfl
    | ok r =>
      simp only [Except.map, SetOut.ofMap, SetCall.undo, Op.undo, List.map_map]
      rfl
  | removeOverlapping q =>
    simp only [SetCall.toMap, NoditMap.step, bind, Except.bind, pure, Except.pure]
    cases m.removeOverlapping q with
    | error p => rfl
    | ok r =>
      simp only [Except.map, SetOut.ofMap, SetCall.undo, Op.undo, List.map_map]
      rfl
  | _ => simp only [SetCall.undo, SetCall.toMap, Op.undo, List.map_nil]

theorem setRollback_toMap (m : NoditMap K Unit) (ops : List (SetCall I K)) :
    (setRollback ops ((m.run (ops.map SetCall.toMap)).2.map (fun o => o.map SetOut.ofMap))).map SetCall.toMap =
      rollback (ops.map SetCall.toMap) (m.run (ops.map SetCall.toMap)).2 := by
  induction ops generalizing m with
  | nil => rfl
  | cons op ops ih =>
    have hu := undo_toMap m op
    simp only [List.map_cons, NoditMap.run]
    revert hu
    cases m.step op.toMap with
    | error p =>
      intro hu
      simp only [Except.map] at hu
      simp only [List.map_cons, setRollback, rollback, List.map_append, ih]
      simp only [Except.map, hu]
    | ok r =>
      intro hu
      simp only [Except.map] at hu
      simp only [List.map_cons, setRollback, rollback, List.map_append, ih]
      simp only [Except.map, hu]

/-- **C117** for `NoditSet`: after any sequence of calls other than `insert_merge_overlapping` and
`insert_merge_touching_or_overlapping`, the calls `setRollback` makes of their results restore
the set: it contains the same points as before, every interval is a part of one that was there before, and no call of the
rollback panics or is refused. -/
theorem C117_set_rollback {s s1 s' : NoditSet K} {os us : List (Res (SetOut K))} (h : Ascending s.iter)
    (ops : List (SetCall I K)) (hops : ∀ op ∈ ops, op.Reversible) (h1 : s.runCalls ops = (s1, os))
    (h2 : s1.runCalls (setRollback ops os) = (s', us)) :
    (∀ p : I, s'.containsPoint p = s.containsPoint p) ∧
    (∀ k' ∈ s'.iter, ∃ k ∈ s.iter, ∀ p : I, Mem p k' → Mem p k) ∧
    ∀ u ∈ us, ∃ out, u = .ok out ∧ out ≠ .strict (.error ()) := by
  rw [runCalls_eq] at h1
  cases h1
  rw [runCalls_eq, setRollback_toMap] at h2
  cases h2
  have hw : WF s.inner.iter := NoditSet.wf_iff.2 h
  obtain ⟨a, b, c⟩ := C117_rollback hw (ops.map SetCall.toMap) (by
    intro op hop
    obtain ⟨x, hx, rfl⟩ := List.mem_map.1 hop
    have := hops x hx
    cases x <;> first | exact this.elim | exact fun _ => rfl | exact trivial) rfl rfl
  refine ⟨fun p => ?_, ?_, ?_⟩
  · have := a p
    revert this
    simp only [NoditSet.containsPoint, NoditMap.containsPoint, NoditMap.getAtPoint, bind, Except.bind, pure, Except.pure]
    generalize (s.inner.getKeyValueAtPoint p : Res (Except K (K × Unit))) = y
    generalize (NoditMap.getKeyValueAtPoint _ p : Res (Except K (K × Unit))) = x
    intro this
    rcases x with _ | (_ | _) <;> rcases y with _ | (_ | _) <;> simp_all
  · intro k' hk'
    obtain ⟨e', he', rfl⟩ := List.mem_map.1 hk'
    obtain ⟨e, he, -, hp⟩ := b e' he'
    exact ⟨e.1, List.mem_map.2 ⟨e, he, rfl⟩, hp⟩
  · intro u hu
    obtain ⟨o, ho, rfl⟩ := List.mem_map.1 hu
    obtain ⟨out, rfl, hno⟩ := c o ho
    refine ⟨_, rfl, ?_⟩
    intro h
    cases out with
    | strict r =>
      rw [SetOut.ofMap, SetOut.strict.injEq] at h
      exact hno () (by rw [h])
    | _ => simp [SetOut.ofMap] at h

/-- **C117** for `NoditSet`, exactly: when only `insert_strict`, `remove_overlapping` and queries were called, the rollback
gives back the very same set. -/
theorem C117_set_exact {s : NoditSet K} (h : Ascending s.iter) (ops : List (SetCall I K)) (hops : ∀ op ∈ ops, op.Whole) :
    ((s.runCalls ops).1.runCalls (setRollback ops (s.runCalls ops).2)).1 = s := by
  have hw : WF s.inner.iter := NoditSet.wf_iff.2 h
  have := C117_exact hw (ops.map SetCall.toMap) (by
    intro op hop
    obtain ⟨x, hx, rfl⟩ := List.mem_map.1 hop
    have := hops x hx
    cases x <;> first | exact this.elim | exact fun _ => rfl | exact trivial)
  rw [runCalls_eq ops, runCalls_eq, setRollback_toMap]
  dsimp only
  rw [this]

/-- **C117** for `NoditSet`, what cannot be rolled back: nothing computed from the results of an `insert_merge_overlapping`
and the set after it always has the points the set had before it. -/
theorem C117_set_merging_is_irreversible
    (restore : NoditSet (Interval Demo.U8) × List (Res (SetOut (Interval Demo.U8))) → NoditSet (Interval Demo.U8)) :
    ∃ s : NoditSet (Interval Demo.U8), Ascending (I := Demo.U8) s.iter ∧ ∃ (op : SetCall Demo.U8 (Interval Demo.U8)) (p : Demo.U8),
      (restore (s.runCalls [op])).containsPoint p ≠ s.containsPoint p := by
  let n : NoditSet (Interval Demo.U8) := ⟨⟨[(Demo.iv 2 4, ())]⟩⟩
  let op : SetCall Demo.U8 (Interval Demo.U8) := .insertMergeOverlapping (Demo.iv 1 7)
  have hv : ∀ a b : Int, Demo.u8 a ≤ Demo.u8 b → Valid (I := Demo.U8) (Demo.iv a b) := fun a b h => valid_iff.2 h
  have hn : Ascending (I := Demo.U8) n.iter := ⟨by
    intro k hk
    rw [List.mem_singleton.1 (show k ∈ [Demo.iv 2 4] from hk)]
    exact hv 2 4 (by decide), List.pairwise_singleton _ _⟩
  have h : n.runCalls [op] = (NoditSet.new : NoditSet (Interval Demo.U8)).runCalls [op] := by
    have h1 : n.inner.insertMergeOverlapping (Demo.iv 1 7) () = NoditMap.insertMergeOverlapping NoditMap.new (Demo.iv 1 7) () := by
      decide
    obtain ⟨m', r, h2, -⟩ := NoditMap.spec_insertMergeOverlapping (m := n.inner) (NoditSet.wf_iff.2 hn) (hv 1 7 (by decide)) ()
    have h3 := h1.symm.trans h2
    simp only [NoditSet.runCalls, NoditSet.stepCall, NoditSet.insertMergeOverlapping, op, h2,
      show (NoditSet.new : NoditSet (Interval Demo.U8)).inner = NoditMap.new from rfl, h3, bind, Except.bind, pure, Except.pure]
  by_cases h1 : (restore (n.runCalls [op])).containsPoint (Demo.u8 3) = n.containsPoint (Demo.u8 3)
  · refine ⟨NoditSet.new, ⟨by simp [NoditSet.iter, NoditSet.new, NoditMap.iter, NoditMap.new], List.Pairwise.nil⟩, op, Demo.u8 3, fun h2 => ?_⟩
    rw [← h, h1] at h2
    exact absurd h2 (by decide)
  · exact ⟨n, hn, op, Demo.u8 3, h1⟩

end
end Nodit
