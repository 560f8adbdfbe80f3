import Verif.Props.Conservation
import Verif.Props.Agreement
import Verif.Props.GqditProps
import Mathlib.Data.Set.Card
import Mathlib.Data.Int.Interval
import Mathlib.Algebra.BigOperators.Group.Finset.Basic
import Mathlib.Algebra.BigOperators.Group.Finset.Piecewise
import Mathlib.Algebra.Order.BigOperators.Group.Finset
/-!
# C109: numbers of points add up

How many points are stored, handed back and free, for point types with finitely many points (such as all primitive integers).
-/
set_option linter.unusedSectionVars false
namespace Nodit
namespace Spec
variable {I K : Type} [PointType I] [IntervalType I K]

/-- the number of points of an interval -/
noncomputable def pointCount (k : K) : Nat := Set.ncard {p : I | Mem p k}

/-- the number of points of the intervals, each counted as often as it occurs -/
noncomputable def total (l : List K) : Nat := (l.map pointCount).sum
end Spec

open Spec PointType NoditMap Conservation

section
variable {I K Q V D : Type} [PointType I] [IntervalType I K] [IntervalType I Q] [Finite I]

open Classical in
/-- counting the points of the entries, point by point -/
theorem total_eq_sum [LawfulPoint I] [Fintype I] (l : List (K × V)) : total (l.map Prod.fst) = ∑ p : I, counts p Set.univ l := by
  induction l with
  | nil => simp [total, counts_nil]
  | cons e l ih =>
    have h1 : pointCount e.1 = ∑ p : I, if Mem p e.1 then 1 else 0 := by
      rw [pointCount, Set.ncard_eq_toFinset_card', ← Finset.card_filter]
      congr 1; ext p; simp
    simp only [total, List.map_cons, List.sum_cons] at ih ⊢
    rw [ih, h1, ← Finset.sum_add_distrib]
    refine Finset.sum_congr rfl fun p _ => ?_
    rw [counts_cons]; simp

/-- disjoint intervals have together as many points as there are points in one of them -/
theorem total_ascending {l : List K} (h : Ascending l) : total l = Set.ncard {p : I | ∃ k ∈ l, Mem p k} := by
  induction l with
  | nil => simp [total]
  | cons k l ih =>
    obtain ⟨h1, h2⟩ := List.pairwise_cons.1 h.2
    have hl : Ascending l := ⟨fun x hx => h.1 x (List.mem_cons_of_mem _ hx), h2⟩
    have hu : {p : I | ∃ x ∈ k :: l, Mem p x} = {p : I | Mem p k} ∪ {p : I | ∃ x ∈ l, Mem p x} := by
      ext p; simp
    have hd : Disjoint {p : I | Mem p k} {p : I | ∃ x ∈ l, Mem p x} := by
      rw [Set.disjoint_left]
      rintro p hp ⟨x, hx, hpx⟩
      exact lt_irrefl p (h1 x hx p p hp hpx)
    rw [hu, Set.ncard_union_eq hd (Set.toFinite _) (Set.toFinite _), ← ih hl]
    simp [total, pointCount]

theorem ascending_of_wf {l : List (K × V)} (h : WF l) : Ascending (l.map Prod.fst) := by
  refine ⟨fun k hk => ?_, ?_⟩
  · obtain ⟨e, he, rfl⟩ := List.mem_map.1 hk; exact h.1 e he
  · rw [List.pairwise_map]; exact h.2

theorem total_wf {l : List (K × V)} (h : WF l) : total (l.map Prod.fst) = Set.ncard {p : I | ∃ e ∈ l, Mem p e.1} := by
  rw [total_ascending (ascending_of_wf h)]
  congr 1; ext p; simp

variable [LawfulPoint I] [LawfulInterval I K]

/-- **C109**: what of a query is covered and what is free adds up to the query: the points of the pieces that `cut` returns, and
the points of the trimmed gaps. -/
theorem C109_covered_and_free {m : NoditMap K V} (h : WF m.iter) {q : Q} (hq : Valid q) :
    ∃ m' pieces gaps, m.cut q = .ok (m', pieces) ∧ m.gapsTrimmed q = .ok gaps ∧
      total (pieces.map Prod.fst) + total gaps = pointCount q := by
  obtain ⟨m', out, h1, h2, h3, h4⟩ := spec_cut h hq
  obtain ⟨gs, g1, g2, -, g3⟩ := C15_gaps_trimmed h q hq
  refine ⟨m', out, gs, h1, g1, ?_⟩
  rw [total_wf h4.1, total_ascending g2, pointCount, ← Set.ncard_union_eq _ (Set.toFinite _) (Set.toFinite _)]
  · congr 1; ext p
    have hp := fun v => (C08_cut_pointwise h q hq h1 p).2.2 v
    simp only [Set.mem_union, Set.mem_ofPred_eq, g3]
    constructor
    · rintro (⟨e, he, hpe⟩ | h')
      · exact ((hp e.2).1 ⟨e, he, hpe, rfl⟩).1
      · exact h'.1
    · intro hpq
      by_cases hc : ∃ e ∈ m.iter, Mem p e.1
      · obtain ⟨e, he, hpe⟩ := hc
        obtain ⟨e', h1', h2', -⟩ := (hp e.2).2 ⟨hpq, e, he, hpe, rfl⟩
        exact Or.inl ⟨e', h1', h2'⟩
      · exact Or.inr ⟨hpq, hc⟩
  · rw [Set.disjoint_left]
    rintro p ⟨e, he, hpe⟩ hg
    obtain ⟨-, d, hd, hpd, -⟩ := ((C08_cut_pointwise h q hq h1 p).2.2 e.2).1 ⟨e, he, hpe, rfl⟩
    exact ((g3 p).1 hg).2 ⟨d, hd, hpd⟩

/-- **C109**: the entries and the gaps of the whole domain add up to all points of the point type. -/
theorem C109_whole_domain {m : NoditMap K V} (h : WF m.iter) :
    ∃ (u : Interval I) (gaps : List K), uu = .ok u ∧ m.gapsUntrimmed u = .ok gaps ∧ m.gapsTrimmed u = .ok gaps ∧
      total (m.iter.map Prod.fst) + total gaps = Nat.card I := by
  have hv : Valid (⟨MIN, MAX⟩ : Interval I) := ⟨MIN, le_refl _, le_max _⟩
  have hall : ∀ p : I, Mem p (⟨MIN, MAX⟩ : Interval I) := fun p => ⟨min_le _, le_max _⟩
  obtain ⟨gs, g1, g2, g3⟩ := spec_gapsUntrimmed h hv
  obtain ⟨gs', g1', g4⟩ := gapsTrimmed_eq (wf_iff_chain.1 h) (valid_iff.1 hv)
  rw [g1, Except.ok.injEq] at g1'; subst g1'
  have hid : gs.map (trim (⟨MIN, MAX⟩ : Interval I)) = gs := by
    conv_rhs => rw [← List.map_id gs]
    refine List.map_congr_left fun k hk => ?_
    obtain ⟨i, rfl, -⟩ := (g3 k).1 hk
    rw [trim, start_of, stop_of]
    show (ofInterval (⟨max i.start MIN, min i.stop MAX⟩ : Interval I) : K) = ofInterval i
    rw [max_eq_left (min_le _), min_eq_left (le_max _)]
  rw [hid] at g4
  obtain ⟨out, o1, o2, -, o3⟩ := C15_gaps_trimmed h _ hv
  rw [g4, Except.ok.injEq] at o1; subst o1
  refine ⟨⟨MIN, MAX⟩, gs, ?_, g1, g4, ?_⟩
  · unfold uu mkChecked
    rw [invalidIntervalPanic_ok (q := (⟨MIN, MAX⟩ : Interval I)) (valid_iff.1 hv)]; rfl
  · rw [total_wf h, total_ascending o2, ← Set.ncard_univ, ← Set.ncard_union_eq _ (Set.toFinite _) (Set.toFinite _)]
    · congr 1; ext p
      simp only [Set.mem_union, Set.mem_ofPred_eq, o3, Set.mem_univ, iff_true]
      by_cases hc : ∃ e ∈ m.iter, Mem p e.1
      · exact Or.inl hc
      · exact Or.inr ⟨hall p, hc⟩
    · rw [Set.disjoint_left]
      intro p hp hg
      exact ((o3 p).1 hg).2 hp

/-- **C109**: the merging inserts that absorb overlapping entries add exactly the points of the gaps inside the interval inserted. -/
theorem C109_merging_inserts_fill_gaps {m : NoditMap K V} (h : WF m.iter) {k : K} (hk : Valid k) (v : V) :
    ∃ m1 k1 m2 k2 gaps, m.insertMergeOverlapping k v = .ok (m1, k1) ∧ m.insertMergeTouchingOrOverlapping k v = .ok (m2, k2) ∧
      m.gapsTrimmed k = .ok gaps ∧
      total (m1.iter.map Prod.fst) = total (m.iter.map Prod.fst) + total gaps ∧
      total (m2.iter.map Prod.fst) = total (m.iter.map Prod.fst) + total gaps := by
  obtain ⟨m1, k1, a1, a2, a3, -, a4⟩ := C12_insert_merge_overlapping h k hk v
  obtain ⟨m2, k2, b1, b2, b3, -, b4⟩ := C13_insert_merge_touching_or_overlapping h k hk v
  obtain ⟨gs, g1, g2, -, g3⟩ := C15_gaps_trimmed h k hk
  have key : Set.ncard {p : I | (∃ e ∈ m.iter, Mem p e.1) ∨ Mem p k} = total (m.iter.map Prod.fst) + total gs := by
    rw [total_wf h, total_ascending g2, ← Set.ncard_union_eq _ (Set.toFinite _) (Set.toFinite _)]
    · congr 1; ext p
      simp only [Set.mem_union, Set.mem_ofPred_eq, g3]
      by_cases h' : ∃ e ∈ m.iter, Mem p e.1 <;> simp [h']
    · rw [Set.disjoint_left]
      intro p hp hg
      exact ((g3 p).1 hg).2 hp
  refine ⟨m1, k1, m2, k2, gs, a1, b1, g1, ?_, ?_⟩
  · rw [← key, total_wf a2]
    congr 1; ext p
    simp only [Set.mem_ofPred_eq, a4]
    constructor
    · rintro ⟨e, ⟨he, -⟩ | rfl, hp⟩
      · exact Or.inl ⟨e, he, hp⟩
      · rcases (a3 p).1 hp with h' | ⟨e, he, -, hpe⟩
        · exact Or.inr h'
        · exact Or.inl ⟨e, he, hpe⟩
    · rintro (⟨e, he, hp⟩ | hp)
      · by_cases ho : Overlap e.1 k
        · exact ⟨_, Or.inr rfl, (a3 p).2 (Or.inr ⟨e, he, ho, hp⟩)⟩
        · exact ⟨e, Or.inl ⟨he, ho⟩, hp⟩
      · exact ⟨_, Or.inr rfl, (a3 p).2 (Or.inl hp)⟩
  · rw [← key, total_wf b2]
    congr 1; ext p
    simp only [Set.mem_ofPred_eq, b4]
    constructor
    · rintro ⟨e, ⟨he, -⟩ | rfl, hp⟩
      · exact Or.inl ⟨e, he, hp⟩
      · rcases (b3 p).1 hp with h' | ⟨e, he, -, hpe⟩
        · exact Or.inr h'
        · exact Or.inl ⟨e, he, hpe⟩
    · rintro (⟨e, he, hp⟩ | hp)
      · by_cases ho : Touch e.1 k ∨ Overlap e.1 k
        · exact ⟨_, Or.inr rfl, (b3 p).2 (Or.inr ⟨e, he, ho, hp⟩)⟩
        · exact ⟨e, Or.inl ⟨he, ho⟩, hp⟩
      · exact ⟨_, Or.inr rfl, (b3 p).2 (Or.inl hp)⟩

/-- **C109**, over whole histories without those two inserts: the points put in by accepted inserts are the points handed back by
`cut`, `remove_overlapping` and `insert_overwrite` and the points stored at the end. -/
theorem C109_history [BEq V] [LawfulBEq V] (ops : List (Op I K V)) (hops : ∀ op ∈ ops, op.KeepsPoints) :
    total ((allPut ops ((NoditMap.new : NoditMap K V).run ops).2).map Prod.fst) =
      total ((allHandedBack ops ((NoditMap.new : NoditMap K V).run ops).2).map Prod.fst) +
      total (((NoditMap.new : NoditMap K V).run ops).1.iter.map Prod.fst) := by
  have := Fintype.ofFinite I
  rw [total_eq_sum, total_eq_sum, total_eq_sum, ← Finset.sum_add_distrib]
  refine Finset.sum_congr rfl fun p _ => ?_
  have := (run_counts ops (wf_new (K := K) (V := V) (I := I)) p Set.univ).1 fun op hop => Or.inr ⟨hops op hop, rfl⟩
  have h0 : counts p Set.univ (NoditMap.new : NoditMap K V).iter = 0 := rfl
  omega

/-- **C109**, over all histories: never more points are handed back and still there than were put in. -/
theorem C109_history_bound [BEq V] [LawfulBEq V] (ops : List (Op I K V)) :
    total ((allHandedBack ops ((NoditMap.new : NoditMap K V).run ops).2).map Prod.fst) +
      total (((NoditMap.new : NoditMap K V).run ops).1.iter.map Prod.fst) ≤
    total ((allPut ops ((NoditMap.new : NoditMap K V).run ops).2).map Prod.fst) := by
  have := Fintype.ofFinite I
  rw [total_eq_sum, total_eq_sum, total_eq_sum, ← Finset.sum_add_distrib]
  refine Finset.sum_le_sum fun p _ => ?_
  have := (run_counts ops (wf_new (K := K) (V := V) (I := I)) p Set.univ).2 rfl
  have h0 : counts p Set.univ (NoditMap.new : NoditMap K V).iter = 0 := rfl
  omega

/-- **C109** for `ZosditMap`, histories of inserts and cuts (an interval stored with several values counts as often): the points put in are
the points handed back and the points stored at the end. -/
theorem C109_zosdit_history (ops : List (ZOp I K V)) (hops : ∀ op ∈ ops, op.isRemove = false) :
    total ((allZPut ops (ZosditMap.outputs ops)).map Prod.fst) =
      total ((allZHandedBack ops (ZosditMap.outputs ops)).map Prod.fst) + total ((ZosditMap.after ops).iter.map Prod.fst) := by
  have := Fintype.ofFinite I
  rw [total_eq_sum, total_eq_sum, total_eq_sum, ← Finset.sum_add_distrib]
  refine Finset.sum_congr rfl fun p _ => ?_
  have := (zrun_counts ops (ZosditMap.represents_new (I := I) (K := K) (V := V)) p Set.univ).1 hops
  have h0 : counts p Set.univ (ZosditMap.new : ZosditMap K V).iter = 0 := rfl
  rw [h0, Nat.add_zero] at this
  exact this

/-- **C109** for `Gqdit`: the points in the gaps without identifier over the whole domain, and the points holding an identifier, add up to
all points of the point type. -/
theorem C109_gqdit [DecidableEq D] {h : GqHist I K D} {g : Gqdit K D} (hg : Gqdit.eval h = .ok g) :
    ∃ (u : Interval I) (gaps : List K), uu = .ok u ∧ g.gapsNoIdentifier u = .ok gaps ∧
      total gaps + Set.ncard {p : I | ∃ s, g.identifiersAtPoint p = .ok s ∧ s ≠ ∅} = Nat.card I := by
  have hv : Valid (⟨MIN, MAX⟩ : Interval I) := ⟨MIN, le_refl _, le_max _⟩
  have hr := rep_of_eval hg
  have ho : g.inner.overlapping (⟨MIN, MAX⟩ : Interval I) = .ok g.inner.iter := by
    rw [overlapping_eq_filter hr.wf hv]
    congr 1
    exact List.filter_eq_self.2 fun e _ => decide_eq_true ⟨le_max _, min_le _⟩
  refine ⟨⟨MIN, MAX⟩, (g.inner.iter.filter (fun e => e.2 = ∅)).map Prod.fst, ?_, ?_, ?_⟩
  · unfold uu mkChecked
    rw [invalidIntervalPanic_ok (q := (⟨MIN, MAX⟩ : Interval I)) (valid_iff.1 hv)]; rfl
  · simp only [Gqdit.gapsNoIdentifier, invalidIntervalPanic_ok (valid_iff.1 hv), ho, bind, Except.bind, pure, Except.pure]
  · have hw : WF (g.inner.iter.filter (fun e => e.2 = ∅)) :=
      ⟨fun e he => hr.wf.1 e (List.mem_of_mem_filter he), hr.wf.2.filter _⟩
    have hset : {p : I | ∃ e ∈ g.inner.iter.filter (fun e => e.2 = ∅), Mem p e.1} = {p : I | h.idsAt p = ∅} := by
      ext p
      simp only [Set.mem_ofPred_eq, List.mem_filter, decide_eq_true_eq, ← hr.at_iff]
      constructor
      · rintro ⟨e, ⟨he, h0⟩, hp⟩; exact ⟨e, he, hp, h0⟩
      · rintro ⟨e, he, hp, h0⟩; exact ⟨e, ⟨he, h0⟩, hp⟩
    rw [total_wf hw, hset, ← Set.ncard_univ, ← Set.ncard_union_eq _ (Set.toFinite _) (Set.toFinite _)]
    · congr 1; ext p
      simp only [Set.mem_union, Set.mem_ofPred_eq, hr.identifiers, Except.ok.injEq, Set.mem_univ, iff_true]
      by_cases h0 : h.idsAt p = ∅
      · exact Or.inl h0
      · exact Or.inr ⟨_, rfl, h0⟩
    · rw [Set.disjoint_left]
      rintro p hp ⟨s, hs, h0⟩
      rw [hr.identifiers, Except.ok.injEq] at hs
      exact h0 (hs ▸ hp)
end

section integers
variable {lo hi : Int}

theorem ncard_between (a b : Int) (ha : lo ≤ a) (hb : b ≤ hi) (hab : a ≤ b + 1) :
    ((Set.ncard {p : BInt lo hi | a ≤ p.val ∧ p.val ≤ b} : Nat) : Int) = b - a + 1 := by
  have him : (fun p : BInt lo hi => p.val) '' {p : BInt lo hi | a ≤ p.val ∧ p.val ≤ b} = Set.Icc a b := by
    ext x
    simp only [Set.mem_image, Set.mem_ofPred_eq, Set.mem_Icc]
    constructor
    · rintro ⟨p, hp, rfl⟩; exact hp
    · rintro ⟨h1, h2⟩; exact ⟨⟨x, by omega, by omega⟩, ⟨h1, h2⟩, rfl⟩
  have hinj : Function.Injective (fun p : BInt lo hi => p.val) := fun p q h => BInt.ext h
  rw [← Set.ncard_image_of_injective _ hinj, him, ← Finset.coe_Icc, Set.ncard_coe_finset, Int.card_Icc]
  omega

variable [Fact (lo ≤ hi)] {K : Type} [IntervalType (BInt lo hi) K]

/-- **C109** on every primitive integer type: the number of points of an interval is `end - start + 1`, and the type has
`MAX - MIN + 1` points. -/
theorem C109_integers (k : K) (hk : Valid k) :
    (pointCount k : Int) = (stop k).val - (start k).val + 1 ∧ (Nat.card (BInt lo hi) : Int) = hi - lo + 1 := by
  constructor
  · have h1 := (start k).ge
    have h2 := (stop k).le
    have h3 : (start k).val ≤ (stop k).val := valid_iff.1 hk
    exact ncard_between (start k).val (stop k).val h1 h2 (by omega)
  · have h3 : lo ≤ hi := Fact.out
    rw [← ncard_between (lo := lo) (hi := hi) lo hi (le_refl _) (le_refl _) (by omega), ← Set.ncard_univ]
    congr 2; ext p
    simp only [Set.mem_univ, Set.mem_ofPred_eq, true_iff]
    exact ⟨p.ge, p.le⟩

instance : Finite (BInt lo hi) :=
  Finite.of_injective (fun p : BInt lo hi => (⟨p.val, Set.mem_Icc.2 ⟨p.ge, p.le⟩⟩ : Set.Icc lo hi))
    (fun p q h => BInt.ext (by simpa using h))
end integers

/-! ### Concrete cases -/

/-- the hypotheses are met by the histories of `Props/Demo.lean` over `u8`, and the interval `5..=18` has 14 points: 3 + 3 + 3 covered and
5 free -/
example : Finite Demo.U8 ∧ WF Demo.m.iter ∧ Valid (Demo.iv 5 18) ∧ (∀ op ∈ Demo.ops, op.KeepsPoints) ∧
    Demo.m.gapsTrimmed (Demo.iv 5 18) = .ok [Demo.iv 5 9] ∧
    (Demo.m.cut (Demo.iv 5 18)).map Prod.snd = .ok [(Demo.iv 10 12, 8), (Demo.iv 13 15, 9), (Demo.iv 16 18, 8)] :=
  ⟨inferInstance, C01_invariant Demo.ops, valid_iff.2 (by decide), by simp [Demo.ops, Op.KeepsPoints], by decide, by decide⟩
example : (pointCount (Demo.iv 5 18) : Int) = 14 := (C109_integers (Demo.iv 5 18) (valid_iff.2 (by decide))).1
end Nodit
