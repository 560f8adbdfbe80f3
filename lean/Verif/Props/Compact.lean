import Verif.Props.SetAlgebra
import Verif.Props.Canonical
import Verif.Props.Bounds
import Verif.Props.MapProps
import Verif.Props.Demo
/-!
# C121: compaction

Maps built by `insert_merge_touching_if_values_equal` have the fewest entries that can hold their values; inserting the entries of
any map, in any order, into a fresh one that way compacts it. For sets `insert_merge_touching_or_overlapping` does it.
-/
set_option linter.unusedSectionVars false
namespace Nodit.Compact
open Spec PointType NoditMap

variable {I K A V : Type} [PointType I] [IntervalType I K] [IntervalType I A] [LawfulPoint I] [LawfulInterval I K]

/-- if the entries of `m` are maximal runs of one value, `m` has no more entries than any map with the same values -/
theorem fewest_of_maximal {m : NoditMap K V} (h : WF m.iter)
    (hmax : ∀ e ∈ m.iter, MaximalRun (fun p : I => m.getAtPoint p = .ok (some e.2)) ⟨start e.1, stop e.1⟩)
    {m' : NoditMap A V} (h' : WF (I := I) m'.iter) (heq : ∀ p : I, m'.getAtPoint p = m.getAtPoint p) : m.len ≤ m'.len := by
  have hex : ∀ e ∈ m.iter, ∃ d ∈ m'.iter, Mem (start e.1) d.1 ∧ d.2 = e.2 := by
    intro e he
    have hv := valid_iff.1 (h.1 e he)
    have h1 := getAtPoint_eq h he (p := start e.1) ⟨le_refl _, hv⟩
    rw [← heq] at h1
    obtain ⟨r, a1, a2⟩ := spec_getAtPoint h' (start e.1)
    rw [a1] at h1; cases h1
    exact (a2 _).1 rfl
  classical
  have hnd : m.iter.Nodup := (wf_iff_chain.1 h).nodup
  have hone : ∀ a ∈ m.iter, ∀ b ∈ m.iter, ∀ d ∈ m'.iter, Mem (start a.1) d.1 → d.2 = a.2 → Mem (start b.1) d.1 → a = b := by
    intro a ha b hb d hd hda hv hdb
    have hin := (hmax a ha).2.2 ⟨start d.1, stop d.1⟩
      (fun p hp => by
        show m.getAtPoint p = _
        rw [← heq, getAtPoint_eq h' hd (p := p) hp, hv])
      ⟨start a.1, ⟨le_refl _, valid_iff.1 (h.1 a ha)⟩, hda⟩ (start b.1) hdb
    by_contra hne
    have hbv : Mem (start b.1) b.1 := ⟨le_refl _, valid_iff.1 (h.1 b hb)⟩
    rcases (wf_iff_chain.1 h).apart ha hb hne with hlt | hlt
    · have h1 : start b.1 ≤ stop a.1 := hin.2
      order
    · have h1 : start a.1 ≤ start b.1 := hin.1
      have h2 := valid_iff.1 (h.1 b hb)
      order
  by_cases hnil : m.iter = []
  · show m.iter.length ≤ _
    simp [hnil]
  obtain ⟨e₀, he₀⟩ := List.exists_mem_of_ne_nil _ hnil
  obtain ⟨d₀, -⟩ := hex e₀ he₀
  have : Nonempty (A × V) := ⟨d₀⟩
  choose! f hf1 hf2 hf3 using hex
  exact length_le_of_inj (l := m.iter) (es := m'.iter) (f := f) hnd
    (fun a ha b hb hab => hone a ha b hb (f a) (hf1 a ha) (hf2 a ha) (hf3 a ha) (hab ▸ hf2 b hb)) hf1

/-- **C121**: after any history of `insert_merge_touching_if_values_equal`, `cut`, `remove_overlapping` and queries the map has the
fewest entries of all maps (over any interval type) with the same value at every point. -/
theorem C121_fewest [BEq V] [LawfulBEq V] (ops : List (Op I K V)) (hops : ∀ op ∈ ops, op.Coalescing) {m' : NoditMap A V}
    (h' : WF (I := I) m'.iter) (heq : ∀ p : I, m'.getAtPoint p = ((new : NoditMap K V).run ops).1.getAtPoint p) :
    ((new : NoditMap K V).run ops).1.len ≤ m'.len :=
  fewest_of_maximal (C01_invariant ops)
    (fun e he => (C53_map_entries_are_maximal_runs ops hops e.2 _).2 ⟨e.1, he, rfl, rfl⟩) h' heq

/-- client code: `for (k, v) in l { m.insert_merge_touching_if_values_equal(k, v).unwrap(); }`, models no lines of `/repo` -/
def insertMerging [BEq V] (m : NoditMap K V) : List (K × V) → Res (NoditMap K V)
  | [] => pure m
  | e :: l => do
    match ← m.insertMergeTouchingIfValuesEqual e.1 e.2 with
    | (m, .ok _) => insertMerging m l
    | (_, .error _) => .error .explicit

theorem insertMerging_spec [BEq V] [LawfulBEq V] {m : NoditMap K V} (h : WF m.iter) {l : List (K × V)} (hv : ∀ e ∈ l, Valid e.1)
    (hp : l.Pairwise fun a b => ¬ Overlap a.1 b.1) (hd : ∀ e ∈ m.iter, ∀ d ∈ l, ¬ Overlap e.1 d.1) :
    ∃ m', insertMerging m l = .ok m' ∧ (m.run (l.map fun e => (.insertMergeTouchingIfValuesEqual e.1 e.2 : Op I K V))).1 = m' ∧
      WF m'.iter ∧ ∀ p v, (∃ e ∈ m'.iter, Mem p e.1 ∧ e.2 = v) ↔ (∃ e ∈ m.iter, Mem p e.1 ∧ e.2 = v) ∨ ∃ e ∈ l, Mem p e.1 ∧ e.2 = v := by
  induction l generalizing m with
  | nil => exact ⟨m, rfl, rfl, h, by simp⟩
  | cons x l ih =>
    obtain ⟨m₁, r, a1, a2, -, a4⟩ := C11_insert_merge_touching_if_values_equal h x.1 (hv x (by simp)) x.2
    obtain ⟨k', rfl, a5, -, a6⟩ := a4 fun e he => hd e he x (by simp)
    have hpw := List.pairwise_cons.1 hp
    have hpts : ∀ p v, (∃ e ∈ m₁.iter, Mem p e.1 ∧ e.2 = v) ↔ (∃ e ∈ m.iter, Mem p e.1 ∧ e.2 = v) ∨ (Mem p x.1 ∧ x.2 = v) := by
      intro p v
      constructor
      · rintro ⟨e, he, hpe, rfl⟩
        rcases (a6 e).1 he with ⟨he, -⟩ | rfl
        · exact .inl ⟨e, he, hpe, rfl⟩
        · rcases (a5 p).1 hpe with hpx | ⟨d, hdm, -, hval, hpd⟩
          · exact .inr ⟨hpx, rfl⟩
          · exact .inl ⟨d, hdm, hpd, eq_of_beq hval⟩
      · rintro (⟨e, he, hpe, rfl⟩ | ⟨hpx, rfl⟩)
        · by_cases ht : Touch e.1 x.1 ∧ (e.2 == x.2) = true
          · exact ⟨(k', x.2), (a6 _).2 (.inr rfl), (a5 p).2 (.inr ⟨e, he, ht.1, ht.2, hpe⟩), (eq_of_beq ht.2).symm⟩
          · exact ⟨e, (a6 e).2 (.inl ⟨he, ht⟩), hpe, rfl⟩
        · exact ⟨(k', x.2), (a6 _).2 (.inr rfl), (a5 p).2 (.inl hpx), rfl⟩
    obtain ⟨m', b1, b2, b3, b4⟩ := ih a2 (fun e he => hv e (by simp [he])) hpw.2 (by
      rintro e he d hdl ⟨p, hpe, hpd⟩
      rcases (hpts p e.2).1 ⟨e, he, hpe, rfl⟩ with ⟨y, hy, hpy, -⟩ | ⟨hpx, -⟩
      · exact hd y hy d (by simp [hdl]) ⟨p, hpy, hpd⟩
      · exact hpw.1 d hdl ⟨p, hpx, hpd⟩)
    refine ⟨m', ?_, ?_, b3, fun p v => ?_⟩
    · simp only [insertMerging, a1, bind, Except.bind, b1]
    · simp only [List.map_cons, NoditMap.run, NoditMap.step, a1, bind, Except.bind, pure, Except.pure, b2]
    · rw [b4, hpts]
      simp only [List.mem_cons, exists_eq_or_imp, or_assoc]

/-- **C121**: inserting disjoint entries, in any order, into a fresh map with `insert_merge_touching_if_values_equal` is never
refused and gives a map with exactly the values of the entries, and the fewest entries a map with these values can have. -/
theorem C121_compact [BEq V] [LawfulBEq V] {l : List (K × V)} (hv : ∀ e ∈ l, Valid e.1) (hp : l.Pairwise fun a b => ¬ Overlap a.1 b.1) :
    ∃ m', insertMerging new l = .ok m' ∧ WF m'.iter ∧
      (∀ p v, m'.getAtPoint p = .ok (some v) ↔ ∃ e ∈ l, Mem p e.1 ∧ e.2 = v) ∧
      (∀ v i, MaximalRun (fun p => ∃ e ∈ l, Mem p e.1 ∧ e.2 = v) i ↔ ∃ k, (k, v) ∈ m'.iter ∧ start k = i.start ∧ stop k = i.stop) ∧
      ∀ (m'' : NoditMap A V), WF (I := I) m''.iter → (∀ p : I, m''.getAtPoint p = m'.getAtPoint p) → m'.len ≤ m''.len := by
  obtain ⟨m', a1, a2, a3, a4⟩ := insertMerging_spec (wf_new (K := K) (V := V) (I := I)) hv hp (fun e he => absurd he List.not_mem_nil)
  have hops : ∀ op ∈ l.map fun e => (.insertMergeTouchingIfValuesEqual e.1 e.2 : Op I K V), op.Coalescing := by
    intro op hop
    obtain ⟨e, -, rfl⟩ := List.mem_map.1 hop
    trivial
  have hget : ∀ p v, m'.getAtPoint p = .ok (some v) ↔ ∃ e ∈ l, Mem p e.1 ∧ e.2 = v := by
    intro p v
    obtain ⟨r, b1, b2⟩ := spec_getAtPoint a3 p
    rw [b1]
    have := a4 p v
    simp only [NoditMap.new, NoditMap.iter, List.not_mem_nil, false_and, exists_false, false_or] at this
    rw [← this, ← NoditMap.iter, Except.ok.injEq]
    exact b2 v
  refine ⟨m', a1, a3, hget, fun v i => ?_, fun m'' h'' heq => ?_⟩
  · have := C53_map_entries_are_maximal_runs _ hops v i
    rw [a2] at this
    rw [← this]
    simp only [hget]
  · have := C121_fewest _ hops (m' := m'') h'' (by rw [a2]; exact heq)
    rwa [a2] at this

/-- **C121**: rebuilding a map from its entries that way keeps the value of every point and never has more entries than the map
had, or than any other map with the same values. -/
theorem C121_rebuild [BEq V] [LawfulBEq V] {m : NoditMap K V} (h : WF m.iter) {l : List (K × V)} (hl : l.Perm m.iter) :
    ∃ m', insertMerging new l = .ok m' ∧ WF m'.iter ∧ (∀ p : I, m'.getAtPoint p = m.getAtPoint p) ∧ m'.len ≤ m.len ∧
      ∀ (m'' : NoditMap A V), WF (I := I) m''.iter → (∀ p : I, m''.getAtPoint p = m.getAtPoint p) → m'.len ≤ m''.len := by
  have hpw : m.iter.Pairwise (fun a b => ¬ Overlap a.1 b.1) :=
    h.2.imp fun hab ⟨p, h1, h2⟩ => lt_irrefl _ (hab p p h1 h2)
  have hv : ∀ e ∈ l, Valid e.1 := fun e he => h.1 e (hl.mem_iff.1 he)
  have hp : l.Pairwise fun a b => ¬ Overlap a.1 b.1 := (hl.pairwise_iff fun h h' => h (overlap_comm.1 h')).2 hpw
  obtain ⟨m', a1, a2, a3, -, a5⟩ := C121_compact (A := A) hv hp
  obtain ⟨m₂, b1, -, -, -, b5⟩ := C121_compact (A := K) hv hp
  rw [a1] at b1; cases b1
  have heq : ∀ p : I, m'.getAtPoint p = m.getAtPoint p := by
    intro p
    obtain ⟨r, b1, b2⟩ := spec_getAtPoint h p
    obtain ⟨r', c1, -⟩ := spec_getAtPoint a2 p
    have := a3 p
    rw [c1] at this
    rw [b1, c1]
    congr 1
    apply Option.ext
    intro v
    rw [b2 v]
    have := this v
    rw [Except.ok.injEq] at this
    rw [this]
    simp only [hl.mem_iff]
    rfl
  exact ⟨m', a1, a2, heq, b5 m h fun p => (heq p).symm, fun m'' h'' e'' => a5 m'' h'' fun p => by rw [e'', heq]⟩

/-! ## Sets -/

omit [LawfulInterval I K] in
theorem set_getAtPoint {s : NoditSet K} (h : Ascending s.iter) (p : I) :
    (p ∈ points s → s.inner.getAtPoint p = .ok (some ())) ∧ (p ∉ points s → s.inner.getAtPoint p = .ok none) := by
  have hw := NoditSet.wf_iff.2 h
  constructor
  · rintro ⟨k, hk, hp⟩
    obtain ⟨e, he, rfl⟩ := List.mem_map.1 hk
    exact getAtPoint_eq hw he hp
  · intro hn
    exact getAtPoint_none hw fun e he hp => hn ⟨e.1, List.mem_map.2 ⟨e, he, rfl⟩, hp⟩

/-- **C121**, sets: after any history of `insert_merge_touching_or_overlapping`, `insert_merge_touching`, `cut` and
`remove_overlapping` a set has the fewest intervals of all sets (over any interval type) with the same points. -/
theorem C121_set_fewest (ops : List (SetOp I K)) (hops : ∀ op ∈ ops, op.Coalescing) {s' : NoditSet A} (h' : Ascending (I := I) s'.iter)
    (heq : (points s' : Set I) = points ((NoditSet.new : NoditSet K).run ops)) :
    ((NoditSet.new : NoditSet K).run ops).len ≤ s'.len := by
  have hA := (C22_set_invariant (K := K) ops).1
  have hrun := C52_set_intervals_are_maximal_runs ops hops
  generalize (NoditSet.new : NoditSet K).run ops = s at *
  have hiff : ∀ p : I, s.inner.getAtPoint p = .ok (some ()) ↔ p ∈ points s := fun p => by
    constructor
    · intro h1
      by_contra hc
      rw [(set_getAtPoint hA p).2 hc] at h1
      cases h1
    · exact (set_getAtPoint hA p).1
  refine fewest_of_maximal (m := s.inner) (NoditSet.wf_iff.2 hA) (fun e he => ?_) (m' := s'.inner) (NoditSet.wf_iff.2 h') fun p => ?_
  · simp only [hiff]
    exact (hrun _).2 ⟨e.1, List.mem_map.2 ⟨e, he, rfl⟩, rfl, rfl⟩
  · by_cases hp : p ∈ (points s : Set I)
    · rw [(set_getAtPoint hA p).1 hp, (set_getAtPoint h' p).1 (heq ▸ hp)]
    · rw [(set_getAtPoint hA p).2 hp, (set_getAtPoint h' p).2 (heq ▸ hp)]

theorem unionLoop_run {a : NoditSet K} (h : Ascending a.iter) (ks : List K) (hks : ∀ k ∈ ks, Valid k) :
    unionLoop a ks = .ok (a.run (ks.map fun k => (.insertMergeTouchingOrOverlapping k : SetOp I K))) := by
  induction ks generalizing a with
  | nil => rfl
  | cons k ks ih =>
    rcases set_step_refines h (.insertMergeTouchingOrOverlapping k) with ⟨hb', -⟩ | ⟨-, s', -, ho, hA, -⟩
    · exact absurd (hks k (by simp)) hb'
    rw [List.map_cons, NoditSet.run, ho]
    simp only
    rw [← ih hA fun d hd => hks d (by simp [hd])]
    simp only [NoditSet.step, bind, Except.bind, pure, Except.pure] at ho
    simp only [unionLoop, bind, Except.bind]
    cases hx : a.insertMergeTouchingOrOverlapping k with
    | error _ => rw [hx] at ho; cases ho
    | ok r => rw [hx] at ho; cases ho; rfl

/-- **C121**, sets: inserting any valid intervals, in any order, overlapping or not, into a fresh set with
`insert_merge_touching_or_overlapping` gives exactly their points, in the fewest intervals a set with these points can have. -/
theorem C121_set_compact (ks : List K) (hv : ∀ k ∈ ks, Valid k) :
    ∃ s, unionLoop NoditSet.new ks = .ok s ∧ Ascending s.iter ∧ points s = {p : I | ∃ k ∈ ks, Mem p k} ∧ s.len ≤ ks.length ∧
      ∀ s' : NoditSet A, Ascending (I := I) s'.iter → (points s' : Set I) = points s → s.len ≤ s'.len := by
  have h0 : Ascending (I := I) (NoditSet.new : NoditSet K).iter := (C22_set_invariant (K := K) (I := I) []).1
  obtain ⟨s, a1, a2, a3⟩ := C100_union h0 ks hv
  have hrun := unionLoop_run h0 ks hv
  rw [a1] at hrun
  cases hrun
  refine ⟨_, a1, a2, ?_, ?_, fun s' h' heq => C121_set_fewest _ (fun op hop => ?_) h' heq⟩
  · rw [a3]
    ext p
    simp [points, NoditSet.new, NoditSet.iter, NoditMap.new, NoditMap.iter]
  · have := C81_set_history (K := K) (ks.map fun k => (.insertMergeTouchingOrOverlapping k : SetOp I K))
    simpa [mapOp, growth, Function.comp_def] using this
  · obtain ⟨k, -, rfl⟩ := List.mem_map.1 hop
    trivial

end Nodit.Compact
