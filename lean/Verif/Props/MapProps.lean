import Verif.Lemmas.Refine
import Verif.Props.Demo
/-!
# C01 - C20: properties of `NoditMap`

`WF` (valid, ascending, disjoint), `Overlap`, `Touch`, `Covered`, `MaximalRun`, ... are defined point-wise in
`Verif/Spec.lean`. By C01 every reachable map satisfies `WF m.iter`, the hypothesis of the other theorems.
-/
set_option linter.unusedSectionVars false
namespace Nodit
open Spec PointType NoditMap

variable {I K Q V : Type} [PointType I] [IntervalType I K] [IntervalType I Q]
  [LawfulPoint I] [LawfulInterval I K]

/-- running a history from a well-formed map refines the reference machine -/
theorem run_refines [BEq V] (ops : List (Op I K V)) {m : NoditMap K V} (h : WF m.iter) :
    WF (m.run ops).1.iter ∧ SpecRun m.entrySet ops (m.run ops).1.entrySet (m.run ops).2 := by
  induction ops generalizing m with
  | nil => exact ⟨h, SpecRun.nil _⟩
  | cons op ops ih =>
    rcases step_refines h op with ⟨hb, he⟩ | ⟨hb, m', o, ho, hw, hs⟩
    · obtain ⟨h1, h2⟩ := ih h
      simp only [run, he]
      exact ⟨h1, SpecRun.cons (Or.inl ⟨hb, rfl, rfl⟩) h2⟩
    · obtain ⟨h1, h2⟩ := ih hw
      simp only [run, ho]
      exact ⟨h1, SpecRun.cons (Or.inr ⟨hb, o, rfl, hs⟩) h2⟩

omit [LawfulPoint I] [LawfulInterval I K] in
theorem wf_new : WF (new : NoditMap K V).iter := ⟨by simp [new, iter], by simp [new, iter]⟩

/-- **C01**: after any history of calls, with any arguments, the entries are valid, ascending and disjoint. -/
theorem C01_invariant [BEq V] (ops : List (Op I K V)) :
    WF ((new : NoditMap K V).run ops).1.iter := (run_refines ops wf_new).1

/-- **C01**, for the states in between and for starting anywhere: one call preserves the invariant. -/
theorem C01_step [BEq V] {m m' : NoditMap K V} {op : Op I K V} {o : Out K V} (h : WF m.iter)
    (hs : m.step op = .ok (m', o)) : WF m'.iter := by
  rcases step_refines h op with ⟨-, he⟩ | ⟨-, m'', o', ho, hw, -⟩
  · rw [he] at hs; cases hs
  · rw [ho] at hs; cases hs; exact hw

example : WF Demo.m.iter ∧ Demo.m.len = 6 := ⟨C01_invariant Demo.ops, by decide⟩

/-- **C02**: on a reachable map a call panics iff its interval argument contains no point, and then it is the
`invalid_interval_panic`. -/
theorem C02_panics_iff_invalid_argument [BEq V] {m : NoditMap K V} (hm : Reachable (I := I) m) (op : Op I K V) :
    ((∃ p, m.step op = .error p) ↔ op.Bad) ∧ ∀ p, m.step op = .error p → p = .invalidInterval := by
  obtain ⟨ops, rfl⟩ := hm
  rcases step_refines (C01_invariant ops) op with ⟨hb, he⟩ | ⟨hb, m', o, ho, -⟩
  · rw [he]
    exact ⟨⟨fun _ => hb, fun _ => ⟨_, rfl⟩⟩, fun p hp => by cases hp; rfl⟩
  · rw [ho]
    exact ⟨⟨fun ⟨p, hp⟩ => (by cases hp), fun h => absurd h hb⟩, fun p hp => (by cases hp)⟩

/-- **C02**, for query arguments of any interval type `Q` -/
theorem C02_any_query_type {m : NoditMap K V} (h : WF m.iter) (q : Q) (f : K → V → V) :
    ((∃ p, m.overlaps q = .error p) ↔ ¬ Valid q) ∧ ((∃ p, m.overlapping q = .error p) ↔ ¬ Valid q) ∧
    ((∃ p, m.overlappingMut q f = .error p) ↔ ¬ Valid q) ∧
    ((∃ p, m.removeOverlapping q = .error p) ↔ ¬ Valid q) ∧ ((∃ p, m.cut q = .error p) ↔ ¬ Valid q) ∧
    ((∃ p, m.gapsUntrimmed q = .error p) ↔ ¬ Valid q) ∧ ((∃ p, m.gapsTrimmed q = .error p) ↔ ¬ Valid q) ∧
    ((∃ p, m.containsInterval q = .error p) ↔ ¬ Valid q) := by
  by_cases hq : Valid q
  · obtain ⟨_, h1, -⟩ := spec_overlaps h hq
    obtain ⟨_, h2, -⟩ := spec_overlapping h hq
    obtain ⟨_, h3, -⟩ := spec_overlappingMut h hq f
    obtain ⟨_, _, h4, -⟩ := spec_removeOverlapping h hq
    obtain ⟨_, _, h5, -⟩ := spec_cut h hq
    obtain ⟨_, h6, -⟩ := spec_gapsUntrimmed h hq
    obtain ⟨_, h7, -⟩ := spec_gapsTrimmed h hq
    obtain ⟨_, h8, -⟩ := spec_containsInterval h hq
    simp [h1, h2, h3, h4, h5, h6, h7, h8, hq]
  · simp [panic_overlaps hq, panic_overlapping hq, panic_overlappingMut hq, panic_removeOverlapping hq,
      panic_cut hq, panic_gapsUntrimmed hq, panic_gapsTrimmed hq, panic_containsInterval hq, hq]

/-- the last call of the demo history has the invalid argument `9..=5` and panics -/
example : Reachable (I := Demo.U8) Demo.m ∧ (Op.insertStrict (Demo.iv 9 5) 3 : Op Demo.U8 _ Nat).Bad ∧
    ¬ (Op.cut (Demo.iv 0 255) : Op Demo.U8 (Interval Demo.U8) Nat).Bad := by
  refine ⟨⟨Demo.ops, rfl⟩, ?_, ?_⟩
  · simp only [Op.Bad, valid_iff]; decide
  · simp only [Op.Bad, valid_iff]; decide

omit [LawfulInterval I K] in
/-- **C03**: point lookups find the entry containing the point, which is unique, or nothing iff there is none. -/
theorem C03_point_lookup {m : NoditMap K V} (h : WF m.iter) (p : I) :
    (∃ r, m.getKeyValueAtPoint p = .ok r ∧ ∀ e, r = .ok e ↔ e ∈ m.iter ∧ Mem p e.1) ∧
    (∃ r, m.getAtPoint p = .ok r ∧ (∀ v, r = some v ↔ ∃ e ∈ m.iter, Mem p e.1 ∧ e.2 = v)) ∧
    (∃ b, m.containsPoint p = .ok b ∧ (b = true ↔ ∃ e ∈ m.iter, Mem p e.1)) ∧
    (∀ e ∈ m.iter, ∀ d ∈ m.iter, Mem p e.1 → Mem p d.1 → e = d) := by
  obtain ⟨r, h1, h2, -⟩ := spec_getKeyValueAtPoint h p
  refine ⟨⟨r, h1, h2⟩, spec_getAtPoint h p, spec_containsPoint h p, ?_⟩
  intro e he d hd hpe hpd
  exact (wf_iff_chain.1 h).eq_of_common he hd (le_trans hpe.1 hpd.2) (le_trans hpd.1 hpe.2)

example : Demo.m.getAtPoint (Demo.u8 14) = .ok (some 9) ∧ Demo.m.getAtPoint (Demo.u8 2) = .ok none := by decide

omit [LawfulInterval I K] in
/-- **C04**: a failed lookup returns the maximal gap around the point. -/
theorem C04_failed_lookup_returns_maximal_gap {m : NoditMap K V} (h : WF m.iter) (p : I)
    (hp : ∀ e ∈ m.iter, ¬ Mem p e.1) :
    ∃ g : Interval I, m.getKeyValueAtPoint p = .ok (.error (ofInterval g)) ∧ Mem p g ∧
      (∀ x, Mem x g → ∀ e ∈ m.iter, ¬ Mem x e.1) ∧
      (∀ j : Interval I, Mem p j → (∀ x, Mem x j → ∀ e ∈ m.iter, ¬ Mem x e.1) → ∀ x, Mem x j → Mem x g) := by
  obtain ⟨r, h1, h2, h3⟩ := spec_getKeyValueAtPoint h p
  cases r with
  | ok e => exact absurd ((h2 e).1 rfl).2 (hp e ((h2 e).1 rfl).1)
  | error g =>
    obtain ⟨i, rfl, hi, hpi⟩ := h3 g rfl
    refine ⟨i, h1, hpi, fun x hx e he hxe => hi.2.1 x hx ⟨e, he, hxe⟩, fun j hpj hj x hx => ?_⟩
    exact hi.2.2 j (fun y hy ⟨e, he, hye⟩ => hj y hy e he hye) ⟨p, hpi, hpj⟩ x hx

example : Demo.m.getKeyValueAtPoint (Demo.u8 7) = .ok (.error (Demo.iv 5 9)) ∧
    Demo.m.getKeyValueAtPoint (Demo.u8 200) = .ok (.error (Demo.iv 21 249)) := by
  constructor <;> rfl

omit [LawfulInterval I K] in
/-- **C05**: `overlapping` lists exactly the entries sharing a point with the query, ascending; `overlaps` tells
whether there is one. -/
theorem C05_overlapping_exact {m : NoditMap K V} (h : WF m.iter) (q : Q) (hq : Valid q) :
    (∃ out, m.overlapping q = .ok out ∧ WF out ∧ ∀ e, e ∈ out ↔ e ∈ m.iter ∧ Overlap e.1 q) ∧
    (∃ b, m.overlaps q = .ok b ∧ (b = true ↔ ∃ e ∈ m.iter, Overlap e.1 q)) := by
  obtain ⟨out, h1, h2, h3⟩ := spec_overlapping h hq
  exact ⟨⟨out, h1, h2, h3⟩, spec_overlaps h hq⟩

example : Valid (Demo.iv 4 13) ∧ Demo.m.overlapping (Demo.iv 4 13) =
    .ok [(Demo.iv 3 4, 7), (Demo.iv 10 12, 8), (Demo.iv 13 15, 9)] := ⟨valid_iff.2 (by decide), by decide⟩

omit [LawfulInterval I K] in
/-- **C06**: `insert_strict` refuses without effect iff an entry shares a point with `k`, else adds exactly `(k, v)`. -/
theorem C06_insert_strict {m : NoditMap K V} (h : WF m.iter) (k : K) (hk : Valid k) (v : V) :
    ∃ m' r, m.insertStrict k v = .ok (m', r) ∧ WF m'.iter ∧
      ((∃ e ∈ m.iter, Overlap e.1 k) → r = .error ⟨v⟩ ∧ m' = m) ∧
      ((∀ e ∈ m.iter, ¬ Overlap e.1 k) → r = .ok () ∧
        (∀ e, e ∈ m'.iter ↔ e ∈ m.iter ∨ e = (k, v)) ∧ m'.len = m.len + 1) := by
  have hc := wf_iff_chain.1 h
  obtain ⟨m', r, h1, h2, h3, h4⟩ := spec_insertStrict h hk v
  refine ⟨m', r, h1, h2, fun he => (h3 he).symm, fun hn => ?_⟩
  obtain ⟨e1, e2⟩ := h4 (fun ⟨e, he, ho⟩ => hn e he ho)
  have hmem : ∀ e, e ∈ m'.iter ↔ e ∈ m.iter ∨ e = (k, v) := fun e => by
    have := Set.ext_iff.1 e1 e
    exact this
  refine ⟨e2, hmem, ?_⟩
  have hnd : ∀ {l : List (K × V)}, Chain l → l.Nodup := fun {l} hl => by
    refine List.Pairwise.imp_of_mem ?_ hl.2
    rintro a b ha hb hab rfl
    exact absurd (hl.1 a ha) (not_le.2 hab)
  have hnot : (k, v) ∉ m.iter := fun hin => hn _ hin ⟨start k, ⟨le_refl _, valid_iff.1 hk⟩, ⟨le_refl _, valid_iff.1 hk⟩⟩
  have hperm : m'.iter.Perm ((k, v) :: m.iter) := by
    rw [List.perm_ext_iff_of_nodup (hnd (wf_iff_chain.1 h2)) (List.nodup_cons.2 ⟨hnot, hnd hc⟩)]
    intro a; rw [hmem, List.mem_cons, or_comm]
  exact hperm.length_eq

example : (∃ m', Demo.m.insertStrict (Demo.iv 5 9) 5 = .ok (m', .ok ()) ∧ m'.len = 7) ∧
    Demo.m.insertStrict (Demo.iv 4 9) 5 = .ok (Demo.m, .error ⟨5⟩) := ⟨⟨_, rfl, by decide⟩, rfl⟩

omit [LawfulInterval I K] in
/-- **C07**: `remove_overlapping` removes and returns exactly the entries sharing a point with the query. -/
theorem C07_remove_overlapping {m : NoditMap K V} (h : WF m.iter) (q : Q) (hq : Valid q) :
    ∃ m' out, m.removeOverlapping q = .ok (m', out) ∧ WF m'.iter ∧ WF out ∧
      (∀ e, e ∈ out ↔ e ∈ m.iter ∧ Overlap e.1 q) ∧ (∀ e, e ∈ m'.iter ↔ e ∈ m.iter ∧ ¬ Overlap e.1 q) := by
  obtain ⟨m', out, h1, h2, h3, h4, h5⟩ := spec_removeOverlapping h hq
  exact ⟨m', out, h1, h2, h4, h5, fun e => Set.ext_iff.1 h3 e⟩

example : ∃ m', Demo.m.removeOverlapping (Demo.iv 4 10) = .ok (m', [(Demo.iv 3 4, 7), (Demo.iv 10 12, 8)]) ∧
    m'.iter = [(Demo.iv 0 1, 7), (Demo.iv 13 15, 9), (Demo.iv 16 20, 8), (Demo.iv 250 255, 1)] :=
  ⟨_, rfl, by decide⟩

omit [LawfulInterval I K] in
theorem getAtPoint_eq {m : NoditMap K V} (h : WF m.iter) {p : I} {e : K × V} (he : e ∈ m.iter) (hp : Mem p e.1) :
    m.getAtPoint p = .ok (some e.2) := by
  obtain ⟨r, h1, h2⟩ := spec_getAtPoint h p
  rw [h1, (h2 e.2).2 ⟨e, he, hp, rfl⟩]

omit [LawfulInterval I K] in
theorem getAtPoint_none {m : NoditMap K V} (h : WF m.iter) {p : I} (hn : ∀ e ∈ m.iter, ¬ Mem p e.1) :
    m.getAtPoint p = .ok none := by
  obtain ⟨r, h1, h2⟩ := spec_getAtPoint h p
  rw [h1]
  cases r with
  | none => rfl
  | some v => obtain ⟨e, he, hp, -⟩ := (h2 v).1 rfl; exact absurd hp (hn e he)

theorem mem_ofInterval {p : I} {i : Interval I} : Mem p (ofInterval i : K) ↔ Mem p i := by
  simp only [Mem, start_of, stop_of]; exact Iff.rfl

omit [LawfulInterval I K] in
/-- the interval of all points of an interval that lie below another one is an interval (or empty) -/
theorem exists_part_below {k : K} {q : Q} (hk : Valid k) (hq : Valid q) {p : I} (hp : Mem p k)
    (hpq : ∀ x, Mem x q → p < x) :
    ∃ i : Interval I, Describes i (fun p => Mem p k ∧ ∀ x, Mem x q → p < x) := by
  have hq' := valid_iff.1 hq
  simp only [forall_mem_lt hq'] at hpq ⊢
  obtain ⟨d, hd, hd1, hd2, hd3⟩ := down_exists hpq
  refine ⟨⟨start k, min (stop k) d⟩, (describes_of ?_ ?_).2 rfl⟩
  · exact le_min (valid_iff.1 hk) (le_trans hp.1 hd2)
  · intro x; simp only [Mem, le_min_iff, hd3]; tauto

omit [LawfulInterval I K] in
theorem exists_part_above {k : K} {q : Q} (hk : Valid k) (hq : Valid q) {p : I} (hp : Mem p k)
    (hpq : ∀ x, Mem x q → x < p) :
    ∃ i : Interval I, Describes i (fun p => Mem p k ∧ ∀ x, Mem x q → x < p) := by
  have hq' := valid_iff.1 hq
  simp only [forall_mem_gt hq'] at hpq ⊢
  obtain ⟨d, hd, hd1, hd2, hd3⟩ := up_exists hpq
  refine ⟨⟨max (start k) d, stop k⟩, (describes_of ?_ ?_).2 rfl⟩
  · exact max_le (valid_iff.1 hk) (le_trans hd2 hp.2)
  · intro x; simp only [Mem, max_le_iff, hd3]; tauto

/-- **C08**: `cut` returns exactly the parts of the entries inside `q`, in ascending order, and leaves exactly the
untouched entries and the parts of the others below and above `q`. -/
theorem C08_cut_exact {m : NoditMap K V} (h : WF m.iter) (q : Q) (hq : Valid q) :
    ∃ m' out, m.cut q = .ok (m', out) ∧ WF m'.iter ∧ WF out ∧
      (∀ e, e ∈ out ↔ ∃ f ∈ m.iter, ∃ i : Interval I, e = (ofInterval i, f.2) ∧
        Describes i (fun p => Mem p f.1 ∧ Mem p q)) ∧
      (∀ e, e ∈ m'.iter ↔ (e ∈ m.iter ∧ ¬ Overlap e.1 q) ∨
        ∃ f ∈ m.iter, Overlap f.1 q ∧ ∃ i : Interval I, e = (ofInterval i, f.2) ∧
          (Describes i (fun p => Mem p f.1 ∧ ∀ x, Mem x q → p < x) ∨
           Describes i (fun p => Mem p f.1 ∧ ∀ x, Mem x q → x < p))) := by
  obtain ⟨m', out, h1, h2, h3, h4, h5⟩ := spec_cut h hq
  exact ⟨m', out, h1, h2, h4, h5, fun e => Set.ext_iff.1 h3 e⟩

/-- **C08**, point-wise: after `cut(q)` a point keeps its value iff it is outside `q`; the points of `q` with their
old values are exactly what the returned pieces hold. -/
theorem C08_cut_pointwise {m m' : NoditMap K V} {out : List (K × V)} (h : WF m.iter) (q : Q) (hq : Valid q)
    (hcut : m.cut q = .ok (m', out)) (p : I) :
    (Mem p q → m'.getAtPoint p = .ok none) ∧ (¬ Mem p q → m'.getAtPoint p = m.getAtPoint p) ∧
    (∀ v, (∃ e ∈ out, Mem p e.1 ∧ e.2 = v) ↔ Mem p q ∧ ∃ e ∈ m.iter, Mem p e.1 ∧ e.2 = v) := by
  obtain ⟨m'', out', h1, h2, h3, h4, h5⟩ := C08_cut_exact h q hq
  rw [h1] at hcut; cases hcut
  refine ⟨fun hp => ?_, fun hp => ?_, fun v => ⟨?_, ?_⟩⟩
  · refine getAtPoint_none h2 fun e he hpe => ?_
    rcases (h5 e).1 he with ⟨-, hno⟩ | ⟨f, hf, ho, i, rfl, hd | hd⟩
    · exact hno ⟨p, hpe, hp⟩
    · exact lt_irrefl _ (((hd.2 p).1 (mem_ofInterval.1 hpe)).2 p hp)
    · exact lt_irrefl _ (((hd.2 p).1 (mem_ofInterval.1 hpe)).2 p hp)
  · by_cases hc : ∃ e ∈ m.iter, Mem p e.1
    · obtain ⟨e, he, hpe⟩ := hc
      rw [getAtPoint_eq h he hpe]
      by_cases ho : Overlap e.1 q
      · have hq' := valid_iff.1 hq
        have hve := h.1 e he
        rcases lt_or_ge p (start q) with hlt | hge
        · obtain ⟨i, hi⟩ := exists_part_below hve hq hpe ((forall_mem_lt hq' p).2 hlt)
          have : (ofInterval i, e.2) ∈ m'.iter := (h5 _).2 (Or.inr ⟨e, he, ho, i, rfl, Or.inl hi⟩)
          exact getAtPoint_eq (e := (ofInterval i, e.2)) h2 this (mem_ofInterval.2 ((hi.2 p).2 ⟨hpe, (forall_mem_lt hq' p).2 hlt⟩))
        · have hgt : stop q < p := not_le.1 fun hle => hp ⟨hge, hle⟩
          obtain ⟨i, hi⟩ := exists_part_above hve hq hpe ((forall_mem_gt hq' p).2 hgt)
          have : (ofInterval i, e.2) ∈ m'.iter := (h5 _).2 (Or.inr ⟨e, he, ho, i, rfl, Or.inr hi⟩)
          exact getAtPoint_eq (e := (ofInterval i, e.2)) h2 this (mem_ofInterval.2 ((hi.2 p).2 ⟨hpe, (forall_mem_gt hq' p).2 hgt⟩))
      · exact getAtPoint_eq h2 ((h5 e).2 (Or.inl ⟨he, ho⟩)) hpe
    · simp only [not_exists, not_and] at hc
      rw [getAtPoint_none h hc]
      refine getAtPoint_none h2 fun e he hpe => ?_
      rcases (h5 e).1 he with ⟨he', -⟩ | ⟨f, hf, ho, i, rfl, hd | hd⟩
      · exact hc e he' hpe
      · exact hc f hf ((hd.2 p).1 (mem_ofInterval.1 hpe)).1
      · exact hc f hf ((hd.2 p).1 (mem_ofInterval.1 hpe)).1
  · rintro ⟨e, he, hpe, rfl⟩
    obtain ⟨f, hf, i, rfl, hd⟩ := (h4 e).1 he
    have := (hd.2 p).1 (mem_ofInterval.1 hpe)
    exact ⟨this.2, f, hf, this.1, rfl⟩
  · rintro ⟨hp, e, he, hpe, rfl⟩
    have hd : Describes (⟨max (start e.1) (start q), min (stop e.1) (stop q)⟩ : Interval I)
        (fun p => Mem p e.1 ∧ Mem p q) := by
      refine (describes_of ?_ ?_).2 rfl
      · exact max_le (le_min (le_trans hpe.1 hpe.2) (le_trans hpe.1 hp.2)) (le_min (le_trans hp.1 hpe.2) (le_trans hp.1 hp.2))
      · intro x; simp only [Mem, max_le_iff, le_min_iff]; tauto
    exact ⟨(ofInterval _, e.2), (h4 _).2 ⟨e, he, _, rfl, hd⟩, mem_ofInterval.2 ((hd.2 p).2 ⟨hpe, hp⟩), rfl⟩

example : ∃ m', Demo.m.cut (Demo.iv 4 18) =
      .ok (m', [(Demo.iv 4 4, 7), (Demo.iv 10 12, 8), (Demo.iv 13 15, 9), (Demo.iv 16 18, 8)]) ∧
    m'.iter = [(Demo.iv 0 1, 7), (Demo.iv 3 3, 7), (Demo.iv 19 20, 8), (Demo.iv 250 255, 1)] :=
  ⟨_, rfl, by decide⟩
/-- cutting everything, `MIN` to `MAX` -/
example : ∃ out, Demo.m.cut (Demo.iv 0 255) = .ok (⟨[]⟩, out) ∧ out.length = 6 := ⟨_, rfl, by decide⟩

/-- **C09**: `insert_overwrite` returns what `cut(k)` returns and leaves what `insert_strict(k, v)`, which succeeds,
makes of the cut map; point-wise, `k`'s points map to `v` and all others keep their value. -/
theorem C09_insert_overwrite {m : NoditMap K V} (h : WF m.iter) (k : K) (hk : Valid k) (v : V) :
    ∃ mc m' out, m.cut k = .ok (mc, out) ∧ m.insertOverwrite k v = .ok (m', out) ∧
      mc.insertStrict k v = .ok (m', .ok ()) ∧ WF m'.iter ∧
      (∀ e, e ∈ m'.iter ↔ e ∈ mc.iter ∨ e = (k, v)) ∧
      ∀ p, (Mem p k → m'.getAtPoint p = .ok (some v)) ∧ (¬ Mem p k → m'.getAtPoint p = m.getAtPoint p) := by
  obtain ⟨mc, m', out, h1, h2, h3, h4, h5, h6⟩ := spec_insertOverwrite h hk v
  obtain ⟨mc', out', e1, e2, e3, e4⟩ := spec_cut h hk
  rw [e1] at h1; cases h1
  have hmem : ∀ e, e ∈ m'.iter ↔ e ∈ mc.iter ∨ e = (k, v) := fun e => by
    have := Set.ext_iff.1 h5 e
    rw [← e3] at this
    exact this
  refine ⟨mc, m', out, e1, h2, h3, h4, hmem, fun p => ⟨fun hp => ?_, fun hp => ?_⟩⟩
  · exact getAtPoint_eq h4 ((hmem (k, v)).2 (Or.inr rfl)) hp
  · rw [← (C08_cut_pointwise h k hk e1 p).2.1 hp]
    by_cases hc : ∃ e ∈ mc.iter, Mem p e.1
    · obtain ⟨e, he, hpe⟩ := hc
      rw [getAtPoint_eq e2 he hpe, getAtPoint_eq h4 ((hmem e).2 (Or.inl he)) hpe]
    · simp only [not_exists, not_and] at hc
      rw [getAtPoint_none e2 hc]
      refine getAtPoint_none h4 fun e he hpe => ?_
      rcases (hmem e).1 he with he | rfl
      · exact hc e he hpe
      · exact hp hpe

example : ∃ m' out, Demo.m.insertOverwrite (Demo.iv 4 11) 5 = .ok (m', out) ∧
    m'.iter = [(Demo.iv 0 1, 7), (Demo.iv 3 3, 7), (Demo.iv 4 11, 5), (Demo.iv 12 12, 8), (Demo.iv 13 15, 9),
      (Demo.iv 16 20, 8), (Demo.iv 250 255, 1)] := ⟨_, _, rfl, by decide⟩

/-- **C10**: `insert_merge_touching`. -/
theorem C10_insert_merge_touching {m : NoditMap K V} (h : WF m.iter) (k : K) (hk : Valid k) (v : V) :
    ∃ m' r, m.insertMergeTouching k v = .ok (m', r) ∧ WF m'.iter ∧
      ((∃ e ∈ m.iter, Overlap e.1 k) → r = .error ⟨v⟩ ∧ m' = m) ∧
      ((∀ e ∈ m.iter, ¬ Overlap e.1 k) → ∃ k', r = .ok k' ∧
        (∀ p, Mem p k' ↔ Mem p k ∨ ∃ e ∈ m.iter, Touch e.1 k ∧ Mem p e.1) ∧
        MergedKey k {e | e ∈ m.iter ∧ Touch e.1 k} k' ∧
        ∀ e, e ∈ m'.iter ↔ (e ∈ m.iter ∧ ¬ Touch e.1 k) ∨ e = (k', v)) := by
  obtain ⟨m', r, h1, h2, h3, h4⟩ := spec_insertMergeTouching h hk v
  refine ⟨m', r, h1, h2, fun he => (h3 he).symm, fun hn => ?_⟩
  obtain ⟨k', e1, e2, e3⟩ := h4 (fun ⟨e, he, ho⟩ => hn e he ho)
  refine ⟨k', e1, fun p => ?_, e2, fun e => Set.ext_iff.1 e3 e⟩
  rw [e2.1 p]; simp only [Set.mem_ofPred_eq, and_assoc]; rfl

/-- touching on both sides: `5..=9` joins `3..=4` and `10..=12` -/
example : ∃ m', Demo.m.insertMergeTouching (Demo.iv 5 9) 5 = .ok (m', .ok (Demo.iv 3 12)) ∧
    m'.iter = [(Demo.iv 0 1, 7), (Demo.iv 3 12, 5), (Demo.iv 13 15, 9), (Demo.iv 16 20, 8), (Demo.iv 250 255, 1)] :=
  ⟨_, rfl, by decide⟩

/-- **C11**: `insert_merge_touching_if_values_equal`. -/
theorem C11_insert_merge_touching_if_values_equal [BEq V] {m : NoditMap K V} (h : WF m.iter) (k : K) (hk : Valid k)
    (v : V) :
    ∃ m' r, m.insertMergeTouchingIfValuesEqual k v = .ok (m', r) ∧ WF m'.iter ∧
      ((∃ e ∈ m.iter, Overlap e.1 k) → r = .error ⟨v⟩ ∧ m' = m) ∧
      ((∀ e ∈ m.iter, ¬ Overlap e.1 k) → ∃ k', r = .ok k' ∧
        (∀ p, Mem p k' ↔ Mem p k ∨ ∃ e ∈ m.iter, Touch e.1 k ∧ (e.2 == v) = true ∧ Mem p e.1) ∧
        MergedKey k {e | e ∈ m.iter ∧ Touch e.1 k ∧ (e.2 == v) = true} k' ∧
        ∀ e, e ∈ m'.iter ↔ (e ∈ m.iter ∧ ¬ (Touch e.1 k ∧ (e.2 == v) = true)) ∨ e = (k', v)) := by
  obtain ⟨m', r, h1, h2, h3, h4⟩ := spec_insertMergeTouchingIfValuesEqual h hk v
  refine ⟨m', r, h1, h2, fun he => (h3 he).symm, fun hn => ?_⟩
  obtain ⟨k', e1, e2, e3⟩ := h4 (fun ⟨e, he, ho⟩ => hn e he ho)
  refine ⟨k', e1, fun p => ?_, e2, fun e => Set.ext_iff.1 e3 e⟩
  rw [e2.1 p]; simp only [Set.mem_ofPred_eq, and_assoc]; rfl

/-- only the right neighbour has the value 8 -/
example : ∃ m', Demo.m.insertMergeTouchingIfValuesEqual (Demo.iv 5 9) 8 = .ok (m', .ok (Demo.iv 5 12)) ∧
    m'.iter = [(Demo.iv 0 1, 7), (Demo.iv 3 4, 7), (Demo.iv 5 12, 8), (Demo.iv 13 15, 9), (Demo.iv 16 20, 8),
      (Demo.iv 250 255, 1)] := ⟨_, rfl, by decide⟩

/-- **C12**: `insert_merge_overlapping`. -/
theorem C12_insert_merge_overlapping {m : NoditMap K V} (h : WF m.iter) (k : K) (hk : Valid k) (v : V) :
    ∃ m' k', m.insertMergeOverlapping k v = .ok (m', k') ∧ WF m'.iter ∧
      (∀ p, Mem p k' ↔ Mem p k ∨ ∃ e ∈ m.iter, Overlap e.1 k ∧ Mem p e.1) ∧
      MergedKey k {e | e ∈ m.iter ∧ Overlap e.1 k} k' ∧
      ∀ e, e ∈ m'.iter ↔ (e ∈ m.iter ∧ ¬ Overlap e.1 k) ∨ e = (k', v) := by
  obtain ⟨m', r, h1, h2, h3, h4⟩ := spec_insertMergeOverlapping h hk v
  refine ⟨m', r, h1, h2, fun p => ?_, h3, fun e => Set.ext_iff.1 h4 e⟩
  rw [h3.1 p]; simp only [Set.mem_ofPred_eq, and_assoc]; rfl

example : ∃ m', Demo.m.insertMergeOverlapping (Demo.iv 5 14) 5 = .ok (m', Demo.iv 5 15) ∧
    m'.iter = [(Demo.iv 0 1, 7), (Demo.iv 3 4, 7), (Demo.iv 5 15, 5), (Demo.iv 16 20, 8), (Demo.iv 250 255, 1)] :=
  ⟨_, rfl, by decide⟩

/-- **C13**: `insert_merge_touching_or_overlapping`. -/
theorem C13_insert_merge_touching_or_overlapping {m : NoditMap K V} (h : WF m.iter) (k : K) (hk : Valid k) (v : V) :
    ∃ m' k', m.insertMergeTouchingOrOverlapping k v = .ok (m', k') ∧ WF m'.iter ∧
      (∀ p, Mem p k' ↔ Mem p k ∨ ∃ e ∈ m.iter, (Touch e.1 k ∨ Overlap e.1 k) ∧ Mem p e.1) ∧
      MergedKey k {e | e ∈ m.iter ∧ (Touch e.1 k ∨ Overlap e.1 k)} k' ∧
      ∀ e, e ∈ m'.iter ↔ (e ∈ m.iter ∧ ¬ (Touch e.1 k ∨ Overlap e.1 k)) ∨ e = (k', v) := by
  obtain ⟨m', r, h1, h2, h3, h4⟩ := spec_insertMergeTouchingOrOverlapping h hk v
  refine ⟨m', r, h1, h2, fun p => ?_, h3, fun e => Set.ext_iff.1 h4 e⟩
  rw [h3.1 p]; simp only [Set.mem_ofPred_eq, and_assoc]; rfl

example : ∃ m', Demo.m.insertMergeTouchingOrOverlapping (Demo.iv 5 14) 5 = .ok (m', Demo.iv 3 15) ∧
    m'.iter = [(Demo.iv 0 1, 7), (Demo.iv 3 15, 5), (Demo.iv 16 20, 8), (Demo.iv 250 255, 1)] :=
  ⟨_, rfl, by decide⟩

/-- **C14**: `gaps_untrimmed` lists exactly the maximal runs of uncovered points meeting the query, ascending. -/
theorem C14_gaps_untrimmed {m : NoditMap K V} (h : WF m.iter) (q : Q) (hq : Valid q) :
    ∃ out, m.gapsUntrimmed q = .ok out ∧ Ascending out ∧
      ∀ k, k ∈ out ↔ ∃ i : Interval I, k = ofInterval i ∧
        MaximalRun (fun p => ¬ ∃ e ∈ m.iter, Mem p e.1) i ∧ Overlap i q := by
  obtain ⟨out, h1, h2, h3⟩ := spec_gapsUntrimmed h hq
  exact ⟨out, h1, h2, h3⟩

example : Demo.m.gapsUntrimmed (Demo.iv 2 100) = .ok [Demo.iv 2 2, Demo.iv 5 9, Demo.iv 21 249] := by decide

/-- **C15**: `gaps_trimmed` lists, ascending, exactly the parts inside the query of the maximal gaps meeting it; a
point of the query is in one of them iff it is uncovered. -/
theorem C15_gaps_trimmed {m : NoditMap K V} (h : WF m.iter) (q : Q) (hq : Valid q) :
    ∃ out, m.gapsTrimmed q = .ok out ∧ Ascending out ∧
      (∀ k, k ∈ out ↔ ∃ i : Interval I, k = ofInterval i ∧
        ∃ g, MaximalRun (fun p => ¬ ∃ e ∈ m.iter, Mem p e.1) g ∧ Describes i (fun p => Mem p g ∧ Mem p q)) ∧
      (∀ p, (∃ k ∈ out, Mem p k) ↔ Mem p q ∧ ¬ ∃ e ∈ m.iter, Mem p e.1) := by
  obtain ⟨out, h1, h2, h3⟩ := spec_gapsTrimmed h hq
  refine ⟨out, h1, h2, h3, fun p => ⟨?_, ?_⟩⟩
  · rintro ⟨k, hk, hp⟩
    obtain ⟨i, rfl, g, hg, hd⟩ := (h3 k).1 hk
    have := (hd.2 p).1 (mem_ofInterval.1 hp)
    exact ⟨this.2, hg.2.1 p this.1⟩
  · rintro ⟨hp, hc⟩
    obtain ⟨r, -, e2, e3⟩ := spec_getKeyValueAtPoint h p
    cases r with
    | ok e => exact absurd ⟨e, (e2 e).1 rfl⟩ hc
    | error g' =>
      obtain ⟨g, -, hg, hpg⟩ := e3 g' rfl
      have hd : Describes (⟨max g.start (start q), min g.stop (stop q)⟩ : Interval I)
          (fun p => Mem p g ∧ Mem p q) := by
        have := hpg.1; have := hpg.2; have := hp.1; have := hp.2
        simp only [start, stop] at *
        refine (describes_of ?_ ?_).2 rfl
        · refine max_le (le_min ?_ ?_) (le_min ?_ ?_) <;> order
        · intro x; simp only [Mem, max_le_iff, le_min_iff, start, stop]; tauto
      exact ⟨ofInterval _, (h3 _).2 ⟨_, rfl, g, hg, hd⟩, mem_ofInterval.2 ((hd.2 p).2 ⟨hpg, hp⟩)⟩

example : Demo.m.gapsTrimmed (Demo.iv 2 100) = .ok [Demo.iv 2 2, Demo.iv 5 9, Demo.iv 21 100] := by decide

/-- **C16**: `contains_interval` is true iff every point of the query is in some entry. -/
theorem C16_contains_interval {m : NoditMap K V} (h : WF m.iter) (q : Q) (hq : Valid q) :
    ∃ b, m.containsInterval q = .ok b ∧ (b = true ↔ ∀ p, Mem p q → ∃ e ∈ m.iter, Mem p e.1) :=
  spec_containsInterval h hq

example : Demo.m.containsInterval (Demo.iv 11 19) = .ok true ∧ Demo.m.containsInterval (Demo.iv 9 19) = .ok false := by
  decide

omit [LawfulInterval I K] in
/-- **C18**: `len`, `is_empty`, `first_key_value`, `last_key_value` and `into_iter` agree with `iter`. -/
theorem C18_len_first_last {m : NoditMap K V} (h : WF m.iter) :
    m.len = m.iter.length ∧ (m.isEmpty = true ↔ m.iter = []) ∧ m.intoIter = m.iter ∧ m.iter.Nodup ∧
    (∀ e, m.firstKeyValue = some e ↔ e ∈ m.iter ∧ ∀ d ∈ m.iter, d ≠ e → Before e.1 d.1) ∧
    (∀ e, m.lastKeyValue = some e ↔ e ∈ m.iter ∧ ∀ d ∈ m.iter, d ≠ e → Before d.1 e.1) ∧
    (m.firstKeyValue = none ↔ m.iter = []) ∧ (m.lastKeyValue = none ↔ m.iter = []) := by
  refine ⟨rfl, List.isEmpty_iff, rfl, ?_, spec_first h, spec_last h, List.head?_eq_none_iff, List.getLast?_eq_none_iff⟩
  have hc := wf_iff_chain.1 h
  refine List.Pairwise.imp_of_mem ?_ hc.2
  rintro a b ha hb hab rfl
  exact absurd (hc.1 a ha) (not_le.2 hab)

example : Demo.m.firstKeyValue = some (Demo.iv 0 1, 7) ∧ Demo.m.lastKeyValue = some (Demo.iv 250 255, 1) := by decide

omit [LawfulInterval I K] in
/-- **C19**: mutable access changes the value of exactly the entry at the point / the entries overlapping the query /
all entries; the intervals and their order stay. -/
theorem C19_mutable_access {m : NoditMap K V} (h : WF m.iter) (p : I) (f : V → V) (g : K → V → V) (q : Q) (hq : Valid q) :
    (let r := m.getAtPointMut p f
     r.1.iter.map Prod.fst = m.iter.map Prod.fst ∧
     (∀ v, r.2 = some v ↔ ∃ e ∈ m.iter, Mem p e.1 ∧ e.2 = v) ∧
     ∀ e, e ∈ r.1.iter ↔ ∃ d ∈ m.iter, (Mem p d.1 ∧ e = (d.1, f d.2)) ∨ (¬ Mem p d.1 ∧ e = d)) ∧
    (∃ m', m.overlappingMut q g = .ok m' ∧ m'.iter.map Prod.fst = m.iter.map Prod.fst ∧
     ∀ e, e ∈ m'.iter ↔ ∃ d ∈ m.iter, (Overlap d.1 q ∧ e = (d.1, g d.1 d.2)) ∨ (¬ Overlap d.1 q ∧ e = d)) ∧
    ((m.iterMut g).iter = m.iter.map (fun d => (d.1, g d.1 d.2))) := by
  obtain ⟨-, h2, h3, h4⟩ := spec_getAtPointMut h p f
  obtain ⟨m', e1, -, e2, e3⟩ := spec_overlappingMut h hq g
  exact ⟨⟨h2, h3, fun e => Set.ext_iff.1 h4 e⟩, ⟨m', e1, e2, fun e => Set.ext_iff.1 e3 e⟩, rfl⟩

example : (Demo.m.getAtPointMut (Demo.u8 14) (· + 1)).1.iter =
    [(Demo.iv 0 1, 7), (Demo.iv 3 4, 7), (Demo.iv 10 12, 8), (Demo.iv 13 15, 10), (Demo.iv 16 20, 8), (Demo.iv 250 255, 1)] := by
  decide

/-- **C20**: every history from a fresh map is a history of the reference machine over plain sets of entries
(`Spec.SpecStep`), with the same outputs, panics included. -/
theorem C20_refines_set_of_entries [BEq V] (ops : List (Op I K V)) :
    SpecRun (∅ : Set (K × V)) ops ((new : NoditMap K V).run ops).1.entrySet ((new : NoditMap K V).run ops).2 := by
  have := (run_refines ops (wf_new (K := K) (V := V) (I := I))).2
  have he : (new : NoditMap K V).entrySet = ∅ := by
    ext x
    exact ⟨fun h => absurd h (List.not_mem_nil), fun h => absurd h (by simp)⟩
  rwa [he] at this

end Nodit
