import Verif.Props.SetProps
import Verif.Props.Canonical
import Verif.Props.Algebra
import Verif.Props.Locality
/-!
# C100: set algebra written with the public API

`NoditSet` has no `union`, `difference` or `intersection`; users write them as loops over the intervals of the other set.
The loops below are client code, not code of the repository; every call in them is a call of the modelled API
(`/repo/src/nodit/set.rs:68-82,120-124`, `/repo/src/nodit/map.rs:430-510,1166-1180`, `/repo/src/interval.rs:145-158`). For two maps the same loops overlay one map on the other
(`insert_overwrite`) and restrict a map to the points of a set (`cut` by its gaps).
-/
set_option linter.unusedSectionVars false
namespace Nodit
open Spec PointType NoditSet

variable {I K A V : Type} [PointType I] [IntervalType I K] [IntervalType I A] [LawfulPoint I] [LawfulInterval I K]

/-- client code: `for k in ks { a.insert_merge_touching_or_overlapping(k); }` -/
def unionLoop (a : NoditSet K) : List K → Res (NoditSet K)
  | [] => pure a
  | k :: ks => do let (a, _) ← a.insertMergeTouchingOrOverlapping k; unionLoop a ks

/-- client code: `for k in ks { removed.extend(a.cut(k)); }` -/
def differenceLoop (a : NoditSet K) : List A → Res (NoditSet K × List K)
  | [] => pure (a, [])
  | k :: ks => do
    let (a, out) ← a.cut k
    let (a, rest) ← differenceLoop a ks
    pure (a, out ++ rest)

/-- client code: `for k in b.gaps_untrimmed(uu()) { a.cut(k); }` -/
def intersectionLoop (a b : NoditSet K) : Res (NoditSet K) := do
  let full : Interval I ← uu
  let gaps : List K ← b.gapsUntrimmed full
  let (a, _) ← differenceLoop a gaps
  pure a

/-- client code: `for (k, v) in es { m.insert_overwrite(k, v); }` -/
def overlayLoop (m : NoditMap K V) : List (K × V) → Res (NoditMap K V)
  | [] => pure m
  | e :: es => do let (m, _) ← m.insertOverwrite e.1 e.2; overlayLoop m es

/-- client code: `for k in ks { m.cut(k); }` -/
def eraseLoop (m : NoditMap K V) : List A → Res (NoditMap K V)
  | [] => pure m
  | k :: ks => do let (m, _) ← m.cut k; eraseLoop m ks

/-- client code: `for k in b.gaps_untrimmed(uu()) { m.cut(k); }` -/
def restrictLoop (m : NoditMap K V) (b : NoditSet K) : Res (NoditMap K V) := do
  let full : Interval I ← uu
  let gaps : List K ← b.gapsUntrimmed full
  eraseLoop m gaps

/-- **C100**: inserting any valid intervals, in any order, with `insert_merge_touching_or_overlapping` gives the union. -/
theorem C100_union {a : NoditSet K} (h : Ascending a.iter) (ks : List K) (hks : ∀ k ∈ ks, Valid k) :
    ∃ s, unionLoop a ks = .ok s ∧ Ascending s.iter ∧ points s = points a ∪ {p | ∃ k ∈ ks, Mem p k} := by
  induction ks generalizing a with
  | nil => exact ⟨a, rfl, h, by ext p; simp⟩
  | cons k ks ih =>
    have hk := hks k (by simp)
    have hb : ¬ (SetOp.insertMergeTouchingOrOverlapping k : SetOp I K).Bad := not_not.2 hk
    rcases set_step_refines h (.insertMergeTouchingOrOverlapping k) with ⟨hb', -⟩ | ⟨-, s', -, ho, hA, -⟩
    · exact absurd hb' hb
    obtain ⟨s, e1, e2, e3⟩ := ih hA (fun d hd => hks d (by simp [hd]))
    have hp := set_step_points h (op := .insertMergeTouchingOrOverlapping k) trivial hb ho
    refine ⟨s, ?_, e2, ?_⟩
    · rw [← e1]
      simp only [step, bind, Except.bind, pure, Except.pure] at ho
      simp only [unionLoop, bind, Except.bind]
      cases hx : a.insertMergeTouchingOrOverlapping k with
      | error _ => rw [hx] at ho; cases ho
      | ok r => rw [hx] at ho; cases ho; rfl
    · rw [e3, hp]
      ext p
      simp only [setStep, Set.mem_union, Set.mem_ofPred_eq, List.mem_cons, exists_eq_or_imp]
      tauto

theorem set_cut_points {a : NoditSet K} (h : Ascending a.iter) {q : A} (hq : Valid q) :
    ∃ s out, a.cut q = .ok (s, out) ∧ Ascending s.iter ∧ Ascending out ∧ points s = points a \ {p | Mem p q} ∧
      ∀ p, (∃ d ∈ out, Mem p d) ↔ p ∈ points a ∧ Mem p q := by
  have hw := wf_iff.2 h
  obtain ⟨m', out, h1, h2, h3, -, -⟩ := C08_cut_exact hw q hq
  refine ⟨⟨m'⟩, out.map Prod.fst, by unfold NoditSet.cut; rw [h1]; rfl, wf_iff.1 h2, wf_iff.1 h3, ?_, fun p => ?_⟩
  · ext p
    have hp := C08_cut_pointwise hw q hq h1 p
    have key : ∀ {s : NoditSet K}, Ascending s.iter → (p ∈ points s ↔ s.inner.getAtPoint p = .ok (some ())) := by
      intro s hs
      obtain ⟨r, e1, e2⟩ := NoditMap.spec_getAtPoint (wf_iff.2 hs) p
      rw [e1]
      constructor
      · rintro ⟨k, hk, hpk⟩
        rw [(e2 ()).2 ⟨(k, ()), mem_iter.1 hk, hpk, rfl⟩]
      · intro hr
        cases hr
        obtain ⟨e, he, hpe, -⟩ := (e2 ()).1 rfl
        exact ⟨e.1, mem_iter.2 he, hpe⟩
    rw [Set.mem_sdiff, key (s := ⟨m'⟩) (wf_iff.1 h2), key h]
    by_cases hq : Mem p q
    · simp [hp.1 hq, hq]
    · simp [hp.2.1 hq, hq]
  · have hp := (C08_cut_pointwise hw q hq h1 p).2.2 ()
    rw [← exists_unit (P := fun k => Mem p k)]
    simp only [and_true] at hp
    rw [hp, and_comm]
    refine and_congr ?_ Iff.rfl
    exact covered_iff

/-- **C100**: cutting valid intervals, in any order, gives the difference; the pieces returned cover exactly the points that
were in both, each of them once. -/
theorem C100_difference {a : NoditSet K} (h : Ascending a.iter) (ks : List A) (hks : ∀ k ∈ ks, Valid k) :
    ∃ s out, differenceLoop a ks = .ok (s, out) ∧ Ascending s.iter ∧
      points s = points a \ {p | ∃ k ∈ ks, Mem p k} ∧
      (∀ p, (∃ d ∈ out, Mem p d) ↔ p ∈ points a ∧ ∃ k ∈ ks, Mem p k) ∧
      (∀ d ∈ out, Valid d) ∧ out.Pairwise (fun c d => ¬ Overlap c d) ∧
      (Ascending ks → Ascending out) := by
  induction ks generalizing a with
  | nil =>
    exact ⟨a, [], rfl, h, by ext p; simp, by simp, by simp, List.Pairwise.nil, fun _ => ⟨by simp, List.Pairwise.nil⟩⟩
  | cons k ks ih =>
    obtain ⟨s1, o1, h1, h2, h3, h4, h5⟩ := set_cut_points h (hks k (by simp))
    obtain ⟨s2, o2, g1, g2, g3, g4, g5, g6, g7⟩ := ih h2 (fun d hd => hks d (by simp [hd]))
    refine ⟨s2, o1 ++ o2, by simp only [differenceLoop, h1, g1, bind, Except.bind]; rfl, g2, ?_, ?_, ?_, ?_, ?_⟩
    · rw [g3, h4]; ext p
      simp only [Set.mem_sdiff, Set.mem_ofPred_eq, List.mem_cons, exists_eq_or_imp, not_or, and_assoc]
    · intro p
      have e : (∃ d ∈ o1 ++ o2, Mem p d) ↔ (∃ d ∈ o1, Mem p d) ∨ ∃ d ∈ o2, Mem p d := by
        simp only [List.mem_append, or_and_right, exists_or]
      rw [e, h5, g4, h4]
      simp only [Set.mem_sdiff, Set.mem_ofPred_eq, List.mem_cons, exists_eq_or_imp]
      tauto
    · intro d hd
      rcases List.mem_append.1 hd with hd | hd
      · exact h3.1 d hd
      · exact g5 d hd
    · refine List.pairwise_append.2 ⟨?_, g6, ?_⟩
      · refine h3.2.imp ?_
        rintro c d hcd ⟨p, hc, hd⟩
        exact lt_irrefl _ (hcd p p hc hd)
      · rintro c hc d hd ⟨p, hpc, hpd⟩
        have e1 := (h5 p).1 ⟨c, hc, hpc⟩
        have e2 := (g4 p).1 ⟨d, hd, hpd⟩
        rw [h4] at e2
        exact e2.1.2 e1.2
    · intro hA
      have hA' := List.pairwise_cons.1 hA.2
      have i2 := g7 ⟨fun d hd => hA.1 d (by simp [hd]), hA'.2⟩
      refine ⟨fun d hd => ?_, List.pairwise_append.2 ⟨h3.2, i2.2, ?_⟩⟩
      · rcases List.mem_append.1 hd with hd | hd
        · exact h3.1 d hd
        · exact g5 d hd
      · intro c hc d hd p q hp hq
        obtain ⟨-, k', hk', hqk⟩ := (g4 q).1 ⟨d, hd, hq⟩
        exact hA'.1 k' hk' p q ((h5 p).1 ⟨c, hc, hp⟩).2 hqk

theorem uu_full : (uu : Res (Interval I)) = .ok ⟨MIN, MAX⟩ := by
  simp [uu, mkChecked, invalidIntervalPanic, InclusiveInterval.isValid, start, stop, LawfulPoint.min_le, bind, Except.bind, pure, Except.pure]

theorem full_gaps {b : NoditSet K} (hb : Ascending b.iter) :
    ∃ gaps : List K, b.gapsUntrimmed (⟨MIN, MAX⟩ : Interval I) = .ok gaps ∧ Ascending gaps ∧
      ∀ p, (∃ k ∈ gaps, Mem p k) ↔ p ∉ points b := by
  obtain ⟨full, gaps, c, gaps', h1, h2, h3, h4, h5, -⟩ := C60_complement hb
  rw [uu_full] at h1
  cases h1
  have hf : Valid (⟨MIN, MAX⟩ : Interval I) := ⟨MIN, le_refl _, LawfulPoint.min_le _⟩
  obtain ⟨-, -, -, -, ⟨gaps₂, g1, g2, -⟩, -, -⟩ := C22_set_queries hb (⟨MIN, MAX⟩ : Interval I) hf (MIN : I)
  rw [h2] at g1
  cases g1
  refine ⟨gaps, h2, g2, fun p => ?_⟩
  have hc : Ascending c.iter := by rw [h4]; exact g2
  obtain ⟨x, x1, x2⟩ := (C22_set_queries hc (⟨MIN, MAX⟩ : Interval I) hf p).2.2.2.1
  obtain ⟨y, y1, y2⟩ := (C22_set_queries hb (⟨MIN, MAX⟩ : Interval I) hf p).2.2.2.1
  have := h5 p
  rw [x1, y1] at this
  rw [h4] at x2
  rw [← x2]
  show _ ↔ ¬ ∃ k ∈ b.iter, Mem p k
  rw [← y2]
  cases x <;> cases y <;> simp_all

/-- **C100**: cutting the gaps of `b` out of `a` gives the intersection. -/
theorem C100_intersection {a b : NoditSet K} (ha : Ascending a.iter) (hb : Ascending b.iter) :
    ∃ s, intersectionLoop a b = .ok s ∧ Ascending s.iter ∧ points s = points a ∩ points b := by
  obtain ⟨gaps, g1, g2, g3⟩ := full_gaps hb
  obtain ⟨s, out, h1, h2, h3, -⟩ := C100_difference ha gaps g2.1
  refine ⟨s, by simp only [intersectionLoop, uu_full, g1, h1, bind, Except.bind]; rfl, h2, ?_⟩
  rw [h3]; ext p
  have := g3 p
  simp only [Set.mem_sdiff, Set.mem_ofPred_eq, Set.mem_inter_iff, this, not_not]

/-- **C100**: the pieces removed by the difference loop also make up the intersection: `from_iter_strict` accepts them. -/
theorem C100_intersection_from_pieces {a b : NoditSet K} (ha : Ascending a.iter) (hb : Ascending b.iter) :
    ∃ s out c, differenceLoop a b.iter = .ok (s, out) ∧ NoditSet.fromIterStrict out = .ok (.ok c) ∧ Ascending c.iter ∧
      points s = points a \ points b ∧ points c = points a ∩ points b := by
  obtain ⟨s, out, h1, h2, h3, h4, h5, h6, h7⟩ := C100_difference ha b.iter hb.1
  obtain ⟨c, c1, -, c2, c3, -⟩ := (C22_set_from_iter h5).1 h6
  refine ⟨s, out, c, h1, c1, c2, h3, ?_⟩
  ext p
  rw [Set.mem_inter_iff]
  show (∃ k ∈ c.iter, Mem p k) ↔ _
  simp only [c3]
  exact h4 p

/-! ## Canonical results -/

theorem unionLoop_run {a : NoditSet K} (h : Ascending a.iter) (ks : List K) (hks : ∀ k ∈ ks, Valid k) :
    unionLoop a ks = .ok (a.run (ks.map (.insertMergeTouchingOrOverlapping : K → SetOp I K))) := by
  induction ks generalizing a with
  | nil => rfl
  | cons k ks ih =>
    have hb : ¬ (SetOp.insertMergeTouchingOrOverlapping k : SetOp I K).Bad := not_not.2 (hks k (by simp))
    rcases set_step_refines h (.insertMergeTouchingOrOverlapping k) with ⟨hb', -⟩ | ⟨-, s', -, ho, hA, -⟩
    · exact absurd hb' hb
    simp only [List.map_cons, run, ho]
    rw [← ih hA (fun d hd => hks d (by simp [hd]))]
    simp only [step, bind, Except.bind, pure, Except.pure] at ho
    simp only [unionLoop, bind, Except.bind]
    cases hx : a.insertMergeTouchingOrOverlapping k with
    | error _ => rw [hx] at ho; cases ho
    | ok r => rw [hx] at ho; cases ho; rfl

omit [LawfulPoint I] [LawfulInterval I K] in
theorem set_run_append (a : NoditSet K) (xs ys : List (SetOp I K)) : a.run (xs ++ ys) = (a.run xs).run ys := by
  induction xs generalizing a with
  | nil => rfl
  | cons x xs ih =>
    simp only [List.cons_append, run]
    cases a.step x <;> exact ih _

/-- **C100**: for sets built with merging inserts the union is the same value whichever set is the base, whatever the order of
insertion and however the calls are grouped. -/
theorem C100_union_canonical (ops ops' : List (SetOp I (Interval I))) (hops : ∀ op ∈ ops, op.Coalescing)
    (hops' : ∀ op ∈ ops', op.Coalescing) {ks ks' : List (Interval I)} (hks : ∀ k ∈ ks, Valid k) (hks' : ∀ k ∈ ks', Valid k)
    (heq : points ((new : NoditSet (Interval I)).run ops) ∪ {p | ∃ k ∈ ks, Mem p k} =
      points ((new : NoditSet (Interval I)).run ops') ∪ {p | ∃ k ∈ ks', Mem p k}) :
    unionLoop ((new : NoditSet (Interval I)).run ops) ks = unionLoop ((new : NoditSet (Interval I)).run ops') ks' := by
  have a1 := (C22_set_invariant (K := Interval I) ops).1
  have a2 := (C22_set_invariant (K := Interval I) ops').1
  obtain ⟨s, h1, -, h3⟩ := C100_union a1 ks hks
  obtain ⟨s', h1', -, h3'⟩ := C100_union a2 ks' hks'
  have e := unionLoop_run a1 ks hks
  have e' := unionLoop_run a2 ks' hks'
  rw [← set_run_append] at e e'
  rw [e, e']
  rw [e] at h1; rw [e'] at h1'; cases h1; cases h1'
  congr 1
  refine C52_set_canonical _ _ ?_ ?_ (by rw [h3, h3', heq])
  · intro op ho
    rcases List.mem_append.1 ho with ho | ho
    · exact hops op ho
    · obtain ⟨k, -, rfl⟩ := List.mem_map.1 ho; trivial
  · intro op ho
    rcases List.mem_append.1 ho with ho | ho
    · exact hops' op ho
    · obtain ⟨k, -, rfl⟩ := List.mem_map.1 ho; trivial

/-- **C100**: `a ∪ b` and `b ∪ a` are equal values, and `a ∪ a` is `a`. -/
theorem C100_union_commutes (ops ops' : List (SetOp I (Interval I))) (hops : ∀ op ∈ ops, op.Coalescing)
    (hops' : ∀ op ∈ ops', op.Coalescing) {a b : NoditSet (Interval I)} (ha : new.run ops = a) (hb : new.run ops' = b) :
    unionLoop a b.iter = unionLoop b a.iter ∧ unionLoop a a.iter = .ok a := by
  subst ha hb
  have a1 := (C22_set_invariant (K := Interval I) ops).1
  have a2 := (C22_set_invariant (K := Interval I) ops').1
  refine ⟨C100_union_canonical ops ops' hops hops' a2.1 a1.1 (Set.union_comm _ _), ?_⟩
  have := C100_union_canonical ops ops hops hops (ks := ((new : NoditSet (Interval I)).run ops).iter) (ks' := []) a1.1 (by simp)
    (by ext p; simp [points])
  rw [this]; rfl

/-! ## Maps -/

open NoditMap in
/-- **C100**: overlaying entries with `insert_overwrite`: a point has the value of the last entry that contains it, and its old
value if there is none. -/
theorem C100_overlay {m : NoditMap K V} (h : WF m.iter) (es : List (K × V)) (hes : ∀ e ∈ es, Valid e.1) :
    ∃ m', overlayLoop m es = .ok m' ∧ WF m'.iter ∧
      (∀ p, (∀ e ∈ es, ¬ Mem p e.1) → m'.getAtPoint p = m.getAtPoint p) ∧
      ∀ p pre e post, es = pre ++ e :: post → Mem p e.1 → (∀ f ∈ post, ¬ Mem p f.1) → m'.getAtPoint p = .ok (some e.2) := by
  induction es generalizing m with
  | nil => exact ⟨m, rfl, h, fun _ _ => rfl, by intro p pre e post he; simp at he⟩
  | cons x es ih =>
    obtain ⟨mc, m1, out, h1, h2, h3, h4, h5, h6⟩ := C09_insert_overwrite h x.1 (hes x (by simp)) x.2
    obtain ⟨m2, g1, g2, g3, g4⟩ := ih h4 (fun f hf => hes f (by simp [hf]))
    refine ⟨m2, by simp only [overlayLoop, h2, g1, bind, Except.bind], g2, fun p hp => ?_, fun p pre e post he hp hn => ?_⟩
    · rw [g3 p (fun f hf => hp f (by simp [hf])), (h6 p).2 (hp x (by simp))]
    · cases pre with
      | nil =>
        simp only [List.nil_append, List.cons.injEq] at he
        obtain ⟨rfl, rfl⟩ := he
        rw [g3 p hn, (h6 p).1 hp]
      | cons y pre =>
        simp only [List.cons_append, List.cons.injEq] at he
        exact g4 p pre e post he.2 hp hn

/-- **C100**: overlaying all entries of a map `n` on a map `m`: a point has its value in `n` if it has one there, else its value
in `m`. -/
theorem C100_overlay_map {m n : NoditMap K V} (hm : WF m.iter) (hn : WF n.iter) :
    ∃ m', overlayLoop m n.iter = .ok m' ∧ WF m'.iter ∧
      ∀ p, (∀ v, n.getAtPoint p = .ok (some v) → m'.getAtPoint p = .ok (some v)) ∧
        (n.getAtPoint p = .ok none → m'.getAtPoint p = m.getAtPoint p) := by
  obtain ⟨m', h1, h2, h3, h4⟩ := C100_overlay hm n.iter hn.1
  refine ⟨m', h1, h2, fun p => ⟨fun v hv => ?_, fun hv => h3 p fun e he hp => ?_⟩⟩
  · obtain ⟨r, e1, e2⟩ := NoditMap.spec_getAtPoint hn p
    rw [hv] at e1; cases e1
    obtain ⟨e, he, hp, rfl⟩ := (e2 v).1 rfl
    obtain ⟨pre, post, hl⟩ := List.append_of_mem he
    refine h4 p pre e post hl hp fun f hf hpf => ?_
    have hpw := hn.2
    rw [hl, List.pairwise_append] at hpw
    exact lt_irrefl p ((List.pairwise_cons.1 hpw.2.1).1 f hf p p hp hpf)
  · rw [getAtPoint_eq hn he hp] at hv; cases hv

/-- **C100**: cutting valid intervals out of a map, in any order, takes away the values at their points and no others. -/
theorem C100_erase {m : NoditMap K V} (h : WF m.iter) (ks : List A) (hks : ∀ k ∈ ks, Valid k) :
    ∃ m', eraseLoop m ks = .ok m' ∧ WF m'.iter ∧
      ∀ p, ((∃ k ∈ ks, Mem p k) → m'.getAtPoint p = .ok none) ∧ ((∀ k ∈ ks, ¬ Mem p k) → m'.getAtPoint p = m.getAtPoint p) := by
  induction ks generalizing m with
  | nil => exact ⟨m, rfl, h, fun p => ⟨by simp, fun _ => rfl⟩⟩
  | cons k ks ih =>
    obtain ⟨m1, out, h1, h2, -⟩ := C08_cut_exact h k (hks k (by simp))
    have hp := C08_cut_pointwise h k (hks k (by simp)) h1
    obtain ⟨m2, g1, g2, g3⟩ := ih h2 (fun f hf => hks f (by simp [hf]))
    refine ⟨m2, by simp only [eraseLoop, h1, g1, bind, Except.bind], g2, fun p => ⟨?_, fun hn => ?_⟩⟩
    · intro hk
      by_cases hk' : ∃ k ∈ ks, Mem p k
      · exact (g3 p).1 hk'
      · rw [(g3 p).2 (by simpa using hk')]
        obtain ⟨d, hd, hpd⟩ := hk
        rcases List.mem_cons.1 hd with rfl | hd
        · exact (hp p).1 hpd
        · exact absurd ⟨d, hd, hpd⟩ hk'
    · rw [(g3 p).2 fun d hd => hn d (by simp [hd]), (hp p).2.1 (hn k (by simp))]

/-- **C100**: cutting the gaps of a set out of a map leaves the map restricted to the points of the set. -/
theorem C100_restrict {m : NoditMap K V} {b : NoditSet K} (hm : WF m.iter) (hb : Ascending b.iter) :
    ∃ m', restrictLoop m b = .ok m' ∧ WF m'.iter ∧
      ∀ p, (b.containsPoint p = .ok true → m'.getAtPoint p = m.getAtPoint p) ∧
        (b.containsPoint p = .ok false → m'.getAtPoint p = .ok none) := by
  obtain ⟨gaps, g1, g2, g3⟩ := full_gaps hb
  obtain ⟨m', h1, h2, h3⟩ := C100_erase hm gaps g2.1
  refine ⟨m', by simp only [restrictLoop, uu_full, g1, h1, bind, Except.bind], h2, fun p => ?_⟩
  have hf : Valid (⟨MIN, MAX⟩ : Interval I) := ⟨MIN, le_refl _, LawfulPoint.min_le _⟩
  obtain ⟨x, x1, x2⟩ := (C22_set_queries hb (⟨MIN, MAX⟩ : Interval I) hf p).2.2.2.1
  rw [x1]
  refine ⟨fun hx => (h3 p).2 fun k hk hp => ?_, fun hx => (h3 p).1 ((g3 p).2 ?_)⟩
  · cases hx
    exact (g3 p).1 ⟨k, hk, hp⟩ (x2.1 rfl)
  · cases hx
    intro hc
    have := x2.2 hc
    cases this

/-! ## Examples -/

example : unionLoop (NoditSet.new.run Demo.csops) [Demo.iv 4 5, Demo.iv 40 50, Demo.iv 20 39] =
    .ok ⟨⟨[(Demo.iv 0 12, ()), (Demo.iv 20 50, ())]⟩⟩ := by decide

example : differenceLoop (NoditSet.new.run Demo.csops) [Demo.iv 8 9, Demo.iv 2 6] =
    .ok (⟨⟨[(Demo.iv 0 1, ()), (Demo.iv 7 7, ()), (Demo.iv 10 12, ())]⟩⟩, [Demo.iv 8 9, Demo.iv 2 3, Demo.iv 6 6]) := by decide

example : intersectionLoop (NoditSet.new.run Demo.csops) ⟨⟨[(Demo.iv 2 6, ()), (Demo.iv 12 90, ())]⟩⟩ =
    .ok ⟨⟨[(Demo.iv 2 3, ()), (Demo.iv 6 6, ()), (Demo.iv 12 12, ())]⟩⟩ := by decide

example : overlayLoop (⟨[(Demo.iv 0 9, 'a')]⟩ : NoditMap (Interval Demo.U8) Char) [(Demo.iv 3 4, 'b'), (Demo.iv 8 12, 'c')] =
    .ok ⟨[(Demo.iv 0 2, 'a'), (Demo.iv 3 4, 'b'), (Demo.iv 5 7, 'a'), (Demo.iv 8 12, 'c')]⟩ := by decide

example : restrictLoop (⟨[(Demo.iv 0 9, 'a'), (Demo.iv 12 20, 'b')]⟩ : NoditMap (Interval Demo.U8) Char)
    ⟨⟨[(Demo.iv 2 3, ()), (Demo.iv 8 14, ())]⟩⟩ =
    .ok ⟨[(Demo.iv 2 3, 'a'), (Demo.iv 8 9, 'a'), (Demo.iv 12 14, 'b')]⟩ := by decide

end Nodit
