import Verif.Props.CloneHistory
/-!
# C98: how many clones are made
-/
set_option linter.unusedSectionVars false
namespace Nodit
open Spec PointType InclusiveInterval
variable {I K Q V σ : Type} [PointType I] [IntervalType I K] [IntervalType I Q]

namespace Spec
open Classical in
/-- one for an entry that reaches into `q` from the left, one for an entry that sticks out of `q` to the right -/
noncomputable def sticksOut (entries : List (K × V)) (q : Q) : Nat :=
  (if ∃ e ∈ entries, Mem (start q) e.1 ∧ start e.1 < start q then 1 else 0) +
  (if ∃ e ∈ entries, Mem (stop q) e.1 ∧ stop q < stop e.1 then 1 else 0)

open Classical in
/-- how often a call on a map with these entries has to call `clone()` -/
noncomputable def Op.clones (entries : List (K × V)) : Op I K V → Nat
  | .cut q => if Valid q then sticksOut entries q else 0
  | .insertOverwrite k _ => if Valid k then sticksOut entries k else 0
  | _ => 0
end Spec

/-- a `clone()` that counts its calls -/
def countClone (f : V → V) : CloneFn Nat V := fun v n => (f v, n + 1)

theorem cloneEach_count (f : V → V) (l : List (K × V)) (n : Nat) : (cloneEach (countClone f) l n).2 = n + l.length := by
  induction l generalizing n with
  | nil => rfl
  | cons e l ih => obtain ⟨k, v⟩ := e; simp only [cloneEach, ih, countClone, List.length_cons]; omega

/-- the entry reaches into `q` from the left -/
def leftOf (q : Q) (e : K × V) : Bool := decide (start e.1 < start q ∧ start q ≤ stop e.1)
/-- the entry sticks out of `q` to the right -/
def rightOf (q : Q) (e : K × V) : Bool := decide (start e.1 ≤ stop q ∧ stop q < stop e.1)

open Classical in
theorem countP_chain {l : List (K × V)} (p : K × V → Bool) (h : l.Pairwise fun a b => ¬ (p a = true ∧ p b = true)) :
    l.countP p = if ∃ e ∈ l, p e = true then 1 else 0 := by
  induction l with
  | nil => simp
  | cons e l ih =>
    obtain ⟨h1, h2⟩ := List.pairwise_cons.1 h
    have ih := ih h2
    by_cases he : p e = true
    · have h0 : l.countP p = 0 := List.countP_eq_zero.2 fun d hd hp => h1 d hd ⟨he, hp⟩
      rw [List.countP_cons_of_pos he, h0, if_pos ⟨e, by simp, he⟩]
    · rw [List.countP_cons_of_neg he, ih]
      simp [he]

section
variable [LawfulPoint I]

theorem cut_lengths (l : List (K × V)) {q : Q} (hq : start q ≤ stop q) (hv : ∀ e ∈ l, start e.1 ≤ stop e.1) :
    (l.flatMap (cutOut q)).length + (l.flatMap (cutIn q)).length = l.length +
      l.countP (leftOf q) +
      l.countP (rightOf q) := by
  induction l with
  | nil => rfl
  | cons e l ih =>
    have ih := ih fun d hd => hv d (by simp [hd])
    have hve := hv e (by simp)
    have key : (cutOut q e).length + (cutIn q e).length = 1 + (if leftOf q e = true then 1 else 0) +
        (if rightOf q e = true then 1 else 0) := by
      unfold cutOut cutIn
      by_cases ho : ovl q e = true
      · simp only [ho, if_true]
        simp only [ovl, decide_eq_true_eq] at ho
        have e1 : leftOf q e = true ↔ start e.1 < start q := by simp [leftOf, ho.2]
        have e2 : rightOf q e = true ↔ stop q < stop e.1 := by simp [rightOf, ho.1]
        simp only [e1, e2, List.length_append]
        by_cases h1 : start e.1 < start q <;> by_cases h2 : stop q < stop e.1 <;> simp only [h1, h2, if_true, if_false]
        · obtain ⟨d, hd, -⟩ := down_exists h1
          obtain ⟨u, hu, -⟩ := up_exists h2
          simp [hd, hu]
        · obtain ⟨d, hd, -⟩ := down_exists h1
          simp [hd]
        · obtain ⟨u, hu, -⟩ := up_exists h2
          simp [hu]
        · simp
      · simp only [ho]
        simp only [ovl, decide_eq_true_eq] at ho
        have e1 : ¬ leftOf q e = true := fun h => by
          simp only [leftOf, decide_eq_true_eq] at h; exact ho ⟨le_trans h.1.le hq, h.2⟩
        have e2 : ¬ rightOf q e = true := fun h => by
          simp only [rightOf, decide_eq_true_eq] at h; exact ho ⟨h.1, le_trans hq h.2.le⟩
        simp [e1, e2]
    simp only [List.flatMap_cons, List.length_append, List.countP_cons, List.length_cons, decide_eq_true_eq]
    omega

theorem sticksOut_eq {l : List (K × V)} (h : Chain l) (q : Q) : sticksOut l q =
      l.countP (leftOf q) +
      l.countP (rightOf q) := by
  classical
  have h1 : ∀ p : I, l.Pairwise fun a b => ¬ (Mem p a.1 ∧ Mem p b.1) := fun p =>
    h.2.imp fun hab ⟨ha, hb⟩ => absurd (le_trans hb.1 ha.2) (not_le.2 hab)
  rw [countP_chain _ ((h1 (start q)).imp fun hn ⟨ha, hb⟩ => hn (by
      simp only [leftOf, decide_eq_true_eq] at ha hb; exact ⟨⟨ha.1.le, ha.2⟩, ⟨hb.1.le, hb.2⟩⟩)),
    countP_chain _ ((h1 (stop q)).imp fun hn ⟨ha, hb⟩ => hn (by
      simp only [rightOf, decide_eq_true_eq] at ha hb; exact ⟨⟨ha.1, ha.2.le⟩, ⟨hb.1, hb.2.le⟩⟩))]
  have e1 : (∃ e ∈ l, Mem (start q) e.1 ∧ start e.1 < start q) ↔ ∃ e ∈ l, leftOf q e = true := by
    simp only [leftOf, decide_eq_true_eq]
    exact ⟨fun ⟨e, he, h1, h2⟩ => ⟨e, he, h2, h1.2⟩, fun ⟨e, he, h1, h2⟩ => ⟨e, he, ⟨h1.le, h2⟩, h1⟩⟩
  have e2 : (∃ e ∈ l, Mem (stop q) e.1 ∧ stop q < stop e.1) ↔ ∃ e ∈ l, rightOf q e = true := by
    simp only [rightOf, decide_eq_true_eq]
    exact ⟨fun ⟨e, he, h1, h2⟩ => ⟨e, he, h1.1, h2⟩, fun ⟨e, he, h1, h2⟩ => ⟨e, he, ⟨h1, h2.le⟩, h2⟩⟩
  unfold sticksOut
  simp only [e1, e2]

variable [LawfulInterval I K]
namespace NoditMap

theorem cut_noOverlap {m : NoditMap K V} (h : Chain m.inner) {q : Q} (hq : start q ≤ stop q) :
    ∀ d ∈ m.inner.flatMap (cutOut q), ovl q d = false := by
  have h1 := C08_cut_pointwise (wf_iff_chain.2 h) q (valid_iff.2 hq) (cut_ok h hq)
  obtain ⟨m1, out1, e1, e2, -⟩ := C08_cut_exact (wf_iff_chain.2 h) q (valid_iff.2 hq)
  rw [cut_ok h hq] at e1
  cases e1
  intro d hd
  by_contra ho
  rw [Bool.not_eq_false, ovl_iff hq ((wf_iff_chain.1 e2).1 d hd)] at ho
  obtain ⟨p, hp1, hp2⟩ := ho
  have := (h1 p).1 hp2
  rw [getAtPoint_eq e2 hd hp1] at this
  cases this

theorem cutClone_count {m : NoditMap K V} (h : Chain m.inner) {q : Q} (hq : start q ≤ stop q) (f : V → V) (n : Nat) :
    ∃ m' out, m.cutClone (countClone f) q n = .ok (m', out, n + sticksOut m.inner q) ∧ Chain m'.inner ∧
      ∀ e ∈ m'.inner, ovl q e = false := by
  obtain ⟨A, B, C, P, m0, out, m', s', h1, h2, h3, h4, h5, h6, h7, h8, rfl⟩ := cutClone_spec h hq (countClone f) n
  rw [cut_ok h hq] at h1
  simp only [Except.ok.injEq, Prod.mk.injEq] at h1
  obtain ⟨rfl, rfl⟩ := h1
  simp only at h7
  refine ⟨m', m.inner.flatMap (cutIn q), ?_, ?_, ?_⟩
  · rw [h2, cloneEach_count, sticksOut_eq h]
    have hl := cut_lengths m.inner hq h.1
    have hB : (m.inner.flatMap (cutIn q)).length = B.length := by
      rw [h3, List.flatMap_append, List.flatMap_append]
      have hv := h.1
      have a1 : A.flatMap (cutIn q) = [] := by
        rw [List.flatMap_eq_nil_iff]; intro x hx; simp [cutIn, ovl, not_le.2 (h4 x hx)]
      have a2 : C.flatMap (cutIn q) = [] := by
        rw [List.flatMap_eq_nil_iff]; intro x hx; simp [cutIn, ovl, not_le.2 (h6 x hx)]
      have a3 : ∀ x ∈ B, ovl q x = true := fun x hx => (ovl_iff hq (hv x (by rw [h3]; simp [hx]))).2 (h5 x hx)
      have a4 : (B.flatMap (cutIn q)).length = B.length := by
        clear * - a3
        induction B with
        | nil => rfl
        | cons e B ih =>
          simp only [List.flatMap_cons, List.length_append, ih fun x hx => a3 x (by simp [hx]), List.length_cons]
          simp [cutIn, a3 e (by simp)]; omega
      simp [a1, a2, a4]
    have hm := congrArg List.length h3
    rw [h7] at hl
    simp only [List.length_append] at hm hl
    have : P.length = m.inner.countP (leftOf q) +
      m.inner.countP (rightOf q) := by omega
    rw [this]
  · have hw := (C08_cut_exact (wf_iff_chain.2 h) q (valid_iff.2 hq))
    obtain ⟨m1, out1, e1, e2, -⟩ := hw
    rw [cut_ok h hq] at e1
    cases e1
    have e2 := wf_iff_chain.1 e2
    simp only [iter, h7] at e2
    rw [h8]
    have hk : (A ++ (cloneEach (countClone f) P n).1 ++ C).map Prod.fst = (A ++ P ++ C).map Prod.fst := by
      simp [cloneEach_keys]
    unfold Chain at e2 ⊢
    have g1 : ∀ l : List (K × V), (∀ e ∈ l, start e.1 ≤ stop e.1) ↔ ∀ k ∈ l.map Prod.fst, start k ≤ stop k := by simp
    have g2 : ∀ l : List (K × V), l.Pairwise (fun a b => stop a.1 < start b.1) ↔ (l.map Prod.fst).Pairwise (fun a b => stop a < start b) := by
      intro l; rw [List.pairwise_map]
    rw [g1, g2] at e2 ⊢
    rw [hk]; exact e2
  · intro e he
    rw [h8] at he
    have hk : e.1 ∈ (A ++ P ++ C).map Prod.fst := by
      have : e.1 ∈ (A ++ (cloneEach (countClone f) P n).1 ++ C).map Prod.fst := List.mem_map_of_mem he
      simpa [cloneEach_keys] using this
    rw [← h7] at hk
    obtain ⟨d, hd, hde⟩ := List.mem_map.1 hk
    have := cut_noOverlap h hq d hd
    simpa [ovl, hde] using this

variable [BEq V]

theorem stepClone_count {m m' : NoditMap K V} (h : Chain m.inner) (f : V → V) (n n' : Nat) (op : Op I K V) (o : Out K V)
    (hs : m.stepClone (countClone f) n op = .ok (m', o, n')) : Chain m'.inner ∧ n' = n + op.clones m.inner := by
  have other : ∀ {m' : NoditMap K V} {o : Out K V}, m.step op = .ok (m', o) → Chain m'.inner := fun {m' o} hs =>
    wf_iff_chain.1 (C01_step (wf_iff_chain.2 h) hs)
  have rest : (∀ k v, op ≠ .insertOverwrite k v) → (∀ q, op ≠ .cut q) → Chain m'.inner ∧ n' = n := by
    intro h1 h2
    have : m.stepClone (countClone f) n op = (do let (m, o) ← m.step op; pure (m, o, n)) := by
      cases op <;> first | rfl | exact absurd rfl (h1 _ _) | exact absurd rfl (h2 _)
    rw [this] at hs
    simp only [bind, Except.bind, pure, Except.pure] at hs
    rcases hst : m.step op with _ | ⟨m1, o1⟩
    · rw [hst] at hs; cases hs
    · rw [hst] at hs; cases hs; exact ⟨other hst, rfl⟩
  cases op
  case cut q =>
    simp only [stepClone, bind, Except.bind, pure, Except.pure] at hs
    by_cases hq : start q ≤ stop q
    · obtain ⟨m1, out, h1, h2⟩ := cutClone_count h hq f n
      rw [h1] at hs; cases hs
      exact ⟨h2.1, by rw [Op.clones, if_pos (valid_iff.2 hq)]⟩
    · simp [cutClone, invalidIntervalPanic, isValid, hq, bind, Except.bind] at hs
  case insertOverwrite k v =>
    simp only [stepClone, insertOverwriteClone, bind, Except.bind, pure, Except.pure] at hs
    by_cases hq : start k ≤ stop k
    · obtain ⟨m1, out, h1, h2⟩ := cutClone_count h hq f n
      rw [invalidIntervalPanic_ok hq] at hs
      simp only [h1] at hs
      cases hs
      refine ⟨?_, by rw [Op.clones, if_pos (valid_iff.2 hq)]⟩
      refine (insertUnchecked_spec h2.1 hq fun e he => ?_).1
      simpa using h2.2 e he
    · simp [invalidIntervalPanic, isValid, hq, bind, Except.bind] at hs
  all_goals simpa [Op.clones] using rest (by simp) (by simp)

theorem stepClone_panic {m : NoditMap K V} (f : V → V) (n : Nat) (op : Op I K V) {p : Panic} (h : Chain m.inner)
    (hs : m.stepClone (countClone f) n op = .error p) : op.clones m.inner = 0 := by
  cases op
  case cut q =>
    by_cases hq : start q ≤ stop q
    · obtain ⟨m1, out, h1, h2⟩ := cutClone_count h hq f n
      simp only [stepClone, bind, Except.bind, pure, Except.pure, h1] at hs
      cases hs
    · rw [Op.clones, if_neg (fun h => hq (valid_iff.1 h))]
  case insertOverwrite k v =>
    by_cases hq : start k ≤ stop k
    · obtain ⟨m1, out, h1, h2⟩ := cutClone_count h hq f n
      simp only [stepClone, insertOverwriteClone, invalidIntervalPanic_ok hq, bind, Except.bind, pure, Except.pure, h1] at hs
      cases hs
    · rw [Op.clones, if_neg (fun h => hq (valid_iff.1 h))]
  all_goals rfl

omit [LawfulPoint I] [LawfulInterval I K] in
theorem runClone_append (clone : CloneFn σ V) (ops ops' : List (Op I K V)) (m : NoditMap K V) (s : σ) :
    m.runClone clone s (ops ++ ops') =
      (((m.runClone clone s ops).1.runClone clone (m.runClone clone s ops).2.2 ops').1,
        (m.runClone clone s ops).2.1 ++ ((m.runClone clone s ops).1.runClone clone (m.runClone clone s ops).2.2 ops').2.1,
        ((m.runClone clone s ops).1.runClone clone (m.runClone clone s ops).2.2 ops').2.2) := by
  induction ops generalizing m s with
  | nil => rfl
  | cons op ops ih =>
    simp only [List.cons_append, runClone]
    rcases m.stepClone clone s op with _ | ⟨m1, o, s1⟩ <;> simp only [ih, List.cons_append]

theorem runClone_chain (f : V → V) (ops : List (Op I K V)) (m : NoditMap K V) (n : Nat) (h : Chain m.inner) :
    Chain (m.runClone (countClone f) n ops).1.inner := by
  induction ops generalizing m n with
  | nil => exact h
  | cons op ops ih =>
    simp only [runClone]
    rcases hs : m.stepClone (countClone f) n op with _ | ⟨m1, o, s1⟩
    · exact ih m n h
    · exact ih m1 s1 (stepClone_count h f n s1 op o hs).1
end NoditMap

/-- **C98**, `NoditMap`: how often `clone()` is called. After any history, one more call calls `clone()` only if it is a `cut` or an
`insert_overwrite` with a valid interval: once if an entry reaches into the interval from the left, and once if an entry sticks out
to the right; so at most twice, however many entries are cut out, and whatever the clones are. -/
theorem C98_nodit_clone_count [BEq V] (f : V → V) (ops : List (Op I K V)) (op : Op I K V) (n : Nat) :
    (NoditMap.new.runClone (countClone f) n (ops ++ [op])).2.2 =
      (NoditMap.new.runClone (countClone f) n ops).2.2 + op.clones (NoditMap.new.runClone (countClone f) n ops).1.iter ∧
    op.clones (NoditMap.new.runClone (countClone f) n ops).1.iter ≤ 2 := by
  constructor
  · have h : Chain (NoditMap.new.runClone (countClone f) n ops).1.inner :=
      NoditMap.runClone_chain f ops NoditMap.new n ⟨by simp [NoditMap.new], by simp [NoditMap.new]⟩
    rw [NoditMap.runClone_append]
    generalize (NoditMap.new.runClone (countClone f) n ops) = r at h ⊢
    simp only [NoditMap.runClone]
    rcases hs : r.1.stepClone (countClone f) r.2.2 op with _ | ⟨m1, o, s1⟩
    · have := NoditMap.stepClone_panic f r.2.2 op h hs
      simp only [NoditMap.iter, this]; rfl
    · exact (NoditMap.stepClone_count h f _ s1 op o hs).2
  · have h : ∀ {Q : Type} [IntervalType I Q] (l : List (K × V)) (q : Q), sticksOut l q ≤ 2 := by
      intro Q _ l q; unfold sticksOut; split_ifs <;> omega
    cases op <;> simp only [Op.clones] <;> (try split_ifs) <;> first | exact h _ _ | omega

/-- a history with one `cut` that makes two clones, a `cut` of whole entries that makes none, and an `insert_overwrite` that makes one -/
example : ((NoditMap.new.runClone (countClone id) 0
      [.insertStrict (Demo.iv 0 9) 7, .cut (Demo.iv 3 5)] : NoditMap (Interval Demo.U8) Nat × _).2.2 = 2) ∧
    ((NoditMap.new.runClone (countClone id) 0
      [.insertStrict (Demo.iv 0 9) 7, .cut (Demo.iv 3 5), .cut (Demo.iv 6 20)] : NoditMap (Interval Demo.U8) Nat × _).2.2 = 2) ∧
    ((NoditMap.new.runClone (countClone id) 0
      [.insertStrict (Demo.iv 0 9) 7, .cut (Demo.iv 3 5), .cut (Demo.iv 6 20), .insertOverwrite (Demo.iv 1 8) 4] :
        NoditMap (Interval Demo.U8) Nat × _).2.2 = 3) := by
  refine ⟨by decide, by decide, by decide⟩

/-! ## `ZosditMap` -/
namespace ZosditMap

omit [LawfulPoint I] [LawfulInterval I K] [PointType I] [IntervalType I K] [IntervalType I Q] in
theorem cloneStore_count (f : V → V) (vs : List V) (n : Nat) :
    (cloneStore (countClone f) vs n).1.length = vs.length ∧ (cloneStore (countClone f) vs n).2 = n + vs.length := by
  induction vs generalizing n with
  | nil => exact ⟨rfl, rfl⟩
  | cons v vs ih =>
    simp only [cloneStore, countClone] at ih ⊢
    obtain ⟨h1, h2⟩ := ih (n + 1)
    simp only [List.length_cons, h1, h2, true_and]; omega

theorem flatten_length_cons (k : K) (vs : List V) (l : List (K × List V)) :
    (flatten ((k, vs) :: l)).length = vs.length + (flatten l).length := by
  simp [flatten]

theorem flatten_length_append (l l' : List (K × List V)) :
    (flatten (l ++ l')).length = (flatten l).length + (flatten l').length := by
  simp [flatten]

omit [LawfulPoint I] [LawfulInterval I K] in
theorem insertClone_count (f : V → V) (vs : List V) (part : Option (Interval I)) (len n : Nat) :
    (insertClone (countClone f) vs part len n : List (K × List V) × Nat × Nat).2.2 = n +
      (flatten (insertClone (countClone f) vs part len n : List (K × List V) × Nat × Nat).1).length := by
  cases part with
  | none => rfl
  | some part => simp [insertClone, flatten, cloneStore_count]

theorem mapM_length {α β : Type} {f : α → Res β} {l : List α} {r : List β} (h : l.mapM f = .ok r) : r.length = l.length := by
  induction l generalizing r with
  | nil => cases h; rfl
  | cons a l ih =>
    rw [List.mapM_cons] at h
    simp only [bind, Except.bind, pure, Except.pure] at h
    cases hf : f a with
    | error _ => rw [hf] at h; cases h
    | ok b =>
      rw [hf] at h
      cases hl : l.mapM f with
      | error _ => rw [hl] at h; cases h
      | ok r' => rw [hl] at h; cases h; simp [ih hl]

omit [LawfulPoint I] [LawfulInterval I K] in
theorem cutLoopClone_count (f : V → V) (q : Q) (len n : Nat) (l : List (K × List V)) {left out len' n'}
    (h : cutLoopClone (countClone f) q len l n = .ok (left, out, len', n')) :
    (flatten left).length + out.length + n = (flatten l).length + n' := by
  induction l generalizing len n left out len' n' with
  | nil => cases h; simp
  | cons e l ih =>
    obtain ⟨k, vs⟩ := e
    simp only [cutLoopClone, bind, Except.bind] at h
    cases ho : InclusiveInterval.overlaps k q with
    | error _ => rw [ho] at h; cases h
    | ok b =>
      rw [ho] at h
      cases b with
      | false => simp only [Bool.not_false, if_true] at h; cases h; simp
      | true =>
        simp only [Bool.not_true, Bool.false_eq_true, if_false] at h
        cases hc : cutInterval k q with
        | error _ => rw [hc] at h; cases h
        | ok c =>
          rw [hc] at h
          simp only at h
          have c1 := insertClone_count (K := K) f vs c.beforeCut len n
          generalize (insertClone (countClone f) vs c.beforeCut len n : List (K × List V) × Nat × Nat) = r1 at h c1
          have c2 := insertClone_count (K := K) f vs c.afterCut r1.2.1 r1.2.2
          generalize (insertClone (countClone f) vs c.afterCut r1.2.1 r1.2.2 : List (K × List V) × Nat × Nat) = r2 at h c2
          split_ifs at h
          rcases hm : (List.mapM _ vs : Res (List (K × V))) with _ | r
          · rw [hm] at h; cases h
          · rw [hm] at h
            simp only at h
            have hl := mapM_length hm
            rcases hr : cutLoopClone (countClone f) q (r2.2.1 - vs.length) l r2.2.2 with _ | ⟨x, y, z, w⟩
            · rw [hr] at h; cases h
            · rw [hr] at h
              have := ih _ _ hr
              cases h
              simp only [flatten_length_append, flatten_length_cons, List.length_append]
              omega

omit [LawfulPoint I] [LawfulInterval I K] in
theorem cutClone_conserves (f : V → V) {m m' : ZosditMap K V} {q : Q} {n n' : Nat} {out}
    (h : m.cutClone (countClone f) q n = .ok (m', out, n')) : m'.iter.length + out.length + n = m.iter.length + n' := by
  unfold cutClone at h
  simp only [bind, Except.bind, pure, Except.pure] at h
  cases hi : invalidIntervalPanic q with
  | error _ => rw [hi] at h; cases h
  | ok _ =>
    rw [hi] at h
    simp only at h
    have hc := cutCursor_entries m q
    simp only at hc
    generalize (if (BTree.upperBound (exclusiveComp (start q) .lt) m.inner).key.isNone = true then _ else _ : BTree.Cursor K (List V)) = c at h hc
    rcases hr : cutLoopClone (countClone f) q m.len c.after n with _ | ⟨x, y, z, w⟩
    · rw [hr] at h; cases h
    · rw [hr] at h
      cases h
      have := cutLoopClone_count f q m.len n c.after hr
      simp only [ZosditMap.iter]
      rw [← hc]
      simp only [flatten_length_append]
      omega

omit [LawfulPoint I] [LawfulInterval I K] in
theorem runClone_append (clone : CloneFn σ V) (ops ops' : List (ZOp I K V)) (m : ZosditMap K V) (s : σ) :
    m.runClone clone s (ops ++ ops') =
      (((m.runClone clone s ops).1.runClone clone (m.runClone clone s ops).2.2 ops').1,
        (m.runClone clone s ops).2.1 ++ ((m.runClone clone s ops).1.runClone clone (m.runClone clone s ops).2.2 ops').2.1,
        ((m.runClone clone s ops).1.runClone clone (m.runClone clone s ops).2.2 ops').2.2) := by
  induction ops generalizing m s with
  | nil => rfl
  | cons op ops ih =>
    simp only [List.cons_append, runClone]
    rcases m.stepClone clone s op with _ | ⟨m1, o, s1⟩ <;> simp only [ih, List.cons_append]
end ZosditMap

/-- **C98**, `ZosditMap`: how often `clone()` is called. After any history, one more call calls `clone()` only if it is a `cut` with a
valid interval, and then as often as there are values more in the map and in the result than there were in the map before. -/
theorem C98_zosdit_clone_count (ops : List (ZOp I K V)) (op : ZOp I K V) (n : Nat) :
    ((∀ q, op = .cut q → ¬ Valid q) →
      (ZosditMap.new.runClone (countClone id) n (ops ++ [op])).2.2 = (ZosditMap.new.runClone (countClone id) n ops).2.2) ∧
    ∀ q, op = .cut q → Valid q → ∃ returned,
      (ZosditMap.new.runClone (countClone id) n (ops ++ [op])).2.1 =
        (ZosditMap.new.runClone (countClone id) n ops).2.1 ++ [.ok (.entries returned)] ∧
      (ZosditMap.new.runClone (countClone id) n (ops ++ [op])).1.iter.length + returned.length +
          (ZosditMap.new.runClone (countClone id) n ops).2.2 =
        (ZosditMap.new.runClone (countClone id) n ops).1.iter.length +
          (ZosditMap.new.runClone (countClone id) n (ops ++ [op])).2.2 := by
  rw [ZosditMap.runClone_append]
  have hr := (C98_zosdit_faithful_clone (countClone id) (fun _ _ => rfl) ops n).1
  have hcut := fun q hq => C98_zosdit_cut (V := V) (Q := Interval I) ops q hq (countClone id)
  simp only [ZosditMap.after] at hcut
  rw [← hr] at hcut
  generalize (ZosditMap.new.runClone (countClone id) n ops) = r at hcut ⊢
  refine ⟨fun h => ?_, ?_⟩
  · simp only [ZosditMap.runClone]
    cases op with
    | cut q =>
      have hq := h q rfl
      rw [valid_iff] at hq
      simp only [ZosditMap.stepClone, ZosditMap.cutClone, invalidIntervalPanic, isValid, hq, decide_false, Bool.not_false, if_true,
        bind, Except.bind, Bool.false_eq_true, if_false]
    | insertStrictBack k v pick =>
      simp only [ZosditMap.stepClone, bind, Except.bind, pure, Except.pure]
      rcases r.1.step (.insertStrictBack k v pick) with _ | ⟨x, y⟩ <;> rfl
    | removeLastValueAtPoint p =>
      simp only [ZosditMap.stepClone, bind, Except.bind, pure, Except.pure]
      rcases r.1.step (.removeLastValueAtPoint p) with _ | ⟨x, y⟩ <;> rfl
  · rintro q rfl hq
    obtain ⟨m0, out, m', s', -, h2, -⟩ := hcut q hq r.2.2
    refine ⟨out, ?_, ?_⟩
    · simp only [ZosditMap.runClone, ZosditMap.stepClone, h2, bind, Except.bind, pure, Except.pure]
    · have := ZosditMap.cutClone_conserves id h2
      simpa only [ZosditMap.runClone, ZosditMap.stepClone, h2, bind, Except.bind, pure, Except.pure] using this

/-- two clones in one `cut` -/
example : ((ZosditMap.new.runClone (countClone id) 0
      [.insertStrictBack (Demo.iv 0 9) 7 0, .insertStrictBack (Demo.iv 9 9) 8 0, .cut (Demo.iv 3 5)] :
        ZosditMap (Interval Demo.U8) Nat × _).2.2 = 2) := by decide
end
end Nodit
