import Verif.Clone
import Verif.Props.Parametric
import Verif.Props.ZosditProps
/-!
# C98: who gets the clones

What a user's `clone()` returns, and when it is called, matters if values have an identity: reference counts, open handles, ids.
-/
set_option linter.unusedSectionVars false
namespace Nodit
open Spec PointType InclusiveInterval
variable {I K Q V V' σ : Type} [PointType I] [IntervalType I K] [IntervalType I Q]

namespace Spec
/-- every value replaced by a clone, one call of `clone()` for each, in order -/
def cloneEach (clone : V → σ → V × σ) : List (K × V) → σ → List (K × V) × σ
  | [], s => ([], s)
  | (k, v) :: l, s => ((k, (clone v s).1) :: (cloneEach clone l (clone v s).2).1, (cloneEach clone l (clone v s).2).2)

/-- the same interval, with values related by `R` -/
def EntryRel (R : V → V → Prop) (e d : K × V) : Prop := e.1 = d.1 ∧ R e.2 d.2

/-- the same output, up to values related by `R` -/
inductive Out.Rel (R : V → V → Prop) : Out K V → Out K V → Prop
  | unit : Rel R .unit .unit
  | bool (b) : Rel R (.bool b) (.bool b)
  | nat (n) : Rel R (.nat n) (.nat n)
  | entries {l l'} (h : List.Forall₂ (EntryRel R) l l') : Rel R (.entries l) (.entries l')
  | keys (l) : Rel R (.keys l) (.keys l)
  | noValue : Rel R (.optValue none) (.optValue none)
  | value {v v'} (h : R v v') : Rel R (.optValue (some v)) (.optValue (some v'))
  | noEntry : Rel R (.optEntry none) (.optEntry none)
  | entry {e e'} (h : EntryRel R e e') : Rel R (.optEntry (some e)) (.optEntry (some e'))
  | found {e e'} (h : EntryRel R e e') : Rel R (.lookup (.ok e)) (.lookup (.ok e'))
  | gap (k) : Rel R (.lookup (.error k)) (.lookup (.error k))
  | inserted : Rel R (.strict (.ok ())) (.strict (.ok ()))
  | refused {v v'} (h : R v v') : Rel R (.strict (.error v)) (.strict (.error v'))
  | merged (k) : Rel R (.merge (.ok k)) (.merge (.ok k))
  | mergeRefused {v v'} (h : R v v') : Rel R (.merge (.error v)) (.merge (.error v'))
  | key (k) : Rel R (.key k) (.key k)

/-- the same output of a `ZosditMap` call, up to values related by `R` -/
inductive ZOut.Rel (R : V → V → Prop) : ZOut K V → ZOut K V → Prop
  | inserted : Rel R (.strict (.ok ())) (.strict (.ok ()))
  | refused {v v'} (h : R v v') : Rel R (.strict (.error v)) (.strict (.error v'))
  | noValue : Rel R (.optValue none) (.optValue none)
  | value {v v'} (h : R v v') : Rel R (.optValue (some v)) (.optValue (some v'))
  | entries {l l'} (h : List.Forall₂ (EntryRel R) l l') : Rel R (.entries l) (.entries l')

/-- both panic in the same way, or both return, with related outputs -/
inductive ResRel {α : Type} (S : α → α → Prop) : Res α → Res α → Prop
  | error (p) : ResRel S (.error p) (.error p)
  | ok {a b} (h : S a b) : ResRel S (.ok a) (.ok b)

/-- the values given are related to themselves, and the caller's closures keep values related -/
def Op.Respects (R : V → V → Prop) : Op I K V → Prop
  | .insertStrict _ v | .insertMergeTouching _ v | .insertMergeTouchingIfValuesEqual _ v | .insertMergeOverlapping _ v
  | .insertMergeTouchingOrOverlapping _ v | .insertOverwrite _ v => R v v
  | .overlappingMut _ f | .iterMut f => ∀ k a b, R a b → R (f k a) (f k b)
  | .getAtPointMut _ f => ∀ a b, R a b → R (f a) (f b)
  | _ => True

/-- the value given is related to itself -/
def ZOp.Respects (R : V → V → Prop) : ZOp I K V → Prop
  | .insertStrictBack _ v _ => R v v
  | _ => True
end Spec

/-! ## One call -/
theorem cloneEach_append (clone : V → σ → V × σ) (l l' : List (K × V)) (s : σ) : cloneEach clone (l ++ l') s =
    ((cloneEach clone l s).1 ++ (cloneEach clone l' (cloneEach clone l s).2).1, (cloneEach clone l' (cloneEach clone l s).2).2) := by
  induction l generalizing s with
  | nil => rfl
  | cons e l ih => obtain ⟨k, v⟩ := e; simp only [List.cons_append, cloneEach, ih]

theorem cloneEach_keys (clone : V → σ → V × σ) (l : List (K × V)) (s : σ) : (cloneEach clone l s).1.map Prod.fst = l.map Prod.fst := by
  induction l generalizing s with
  | nil => rfl
  | cons e l ih => obtain ⟨k, v⟩ := e; simp only [cloneEach, List.map_cons, ih]

theorem cloneEach_length (clone : V → σ → V × σ) (l : List (K × V)) (s : σ) : (cloneEach clone l s).1.length = l.length := by
  simpa using congrArg List.length (cloneEach_keys clone l s)

namespace NoditMap

/-- the entry for a part that is left -/
def pieceOf (v : V) : Option (Interval I) → List (K × V)
  | some b => [(ofInterval b, v)]
  | none => []

theorem insertClone_eq (clone : CloneFn σ V) (v : V) (part : Option (Interval I)) (s : σ) :
    (insertClone clone v part s : List (K × V) × σ) =
      cloneEach clone (pieceOf v part) s := by
  cases part <;> rfl

theorem cutLoopClone_spec (clone : CloneFn σ V) (q : Q) (l : List (K × V)) (s : σ) :
    (∀ p, cutLoop q l = .error p → cutLoopClone clone q l s = .error p) ∧
    ∀ left out, cutLoop q l = .ok (left, out) → ∃ B C P, l = B ++ C ∧ left = P ++ C ∧
      (∀ e ∈ B, InclusiveInterval.overlaps e.1 q = .ok true) ∧ (∀ e ∈ C.head?, InclusiveInterval.overlaps e.1 q = .ok false) ∧
      cutLoopClone clone q l s = .ok ((cloneEach clone P s).1 ++ C, out, (cloneEach clone P s).2) := by
  induction l generalizing s with
  | nil =>
    refine ⟨fun p h => by simp [cutLoop, pure, Except.pure] at h, fun left out h => ?_⟩
    simp only [cutLoop, pure, Except.pure, Except.ok.injEq, Prod.mk.injEq] at h
    obtain ⟨rfl, rfl⟩ := h
    exact ⟨[], [], [], rfl, rfl, by simp, by simp, rfl⟩
  | cons e l ih =>
    obtain ⟨k, v⟩ := e
    simp only [cutLoop, cutLoopClone, bind, Except.bind, pure, Except.pure]
    cases ho : InclusiveInterval.overlaps k q with
    | error p => simp
    | ok b =>
      cases b with
      | false =>
        simp only [Bool.not_false, if_true]
        refine ⟨by simp, fun left out h => ?_⟩
        simp only [Except.ok.injEq, Prod.mk.injEq] at h
        obtain ⟨rfl, rfl⟩ := h
        exact ⟨[], (k, v) :: l, [], rfl, rfl, by simp, by simpa using ho, rfl⟩
      | true =>
        simp only [Bool.not_true, Bool.false_eq_true, if_false]
        cases cutInterval k q with
        | error p => simp
        | ok c =>
          obtain ⟨b, i, a⟩ := c
          simp only [insertClone_eq]
          cases i with
          | none => simp [unwrap]
          | some i =>
            simp only [unwrap]
            obtain ⟨ih1, ih2⟩ := ih (cloneEach clone (pieceOf v a : List (K × V)) (cloneEach clone (pieceOf v b : List (K × V)) s).2).2
            cases hc : cutLoop q l with
            | error p => rw [ih1 p hc]; simp
            | ok r =>
              obtain ⟨left', out'⟩ := r
              obtain ⟨B, C, P, rfl, rfl, h3, h4, h5⟩ := ih2 _ _ hc
              refine ⟨by simp, fun left out h => ?_⟩
              simp only [Except.ok.injEq, Prod.mk.injEq] at h
              obtain ⟨rfl, rfl⟩ := h
              refine ⟨(k, v) :: B, C, pieceOf v b ++ pieceOf v a ++ P, rfl, by cases a <;> cases b <;> simp [pieceOf], ?_, h4, ?_⟩
              · rintro e (_ | ⟨_, he⟩)
                · exact ho
                · exact h3 e he
              · rw [h5, cloneEach_append, cloneEach_append]
                simp only [List.append_assoc]

variable [LawfulPoint I] [LawfulInterval I K]

theorem cutClone_spec {m : NoditMap K V} (h : Chain m.inner) {q : Q} (hq : start q ≤ stop q) (clone : CloneFn σ V) (s : σ) :
    ∃ A B C P m0 out m' s', m.cut q = .ok (m0, out) ∧ m.cutClone clone q s = .ok (m', out, s') ∧
      m.inner = A ++ B ++ C ∧ (∀ e ∈ A, stop e.1 < start q) ∧ (∀ e ∈ B, Overlap e.1 q) ∧ (∀ e ∈ C, stop q < start e.1) ∧
      m0.inner = A ++ P ++ C ∧ m'.inner = A ++ (cloneEach clone P s).1 ++ C ∧ s' = (cloneEach clone P s).2 := by
  obtain ⟨m0, out, hcut⟩ : ∃ m0 out, m.cut q = .ok (m0, out) := ⟨_, _, cut_ok h hq⟩
  have hcut' := hcut
  simp only [cut, cutClone, BTree.lowerBound, invalidIntervalPanic_ok hq, bind, Except.bind, pure, Except.pure] at hcut ⊢
  set A := m.inner.takeWhile (fun e => overlappingComp (start q) e.1 == .gt) with hA
  set L := m.inner.dropWhile (fun e => overlappingComp (start q) e.1 == .gt) with hL
  have hAL : m.inner = A ++ L := (List.takeWhile_append_dropWhile).symm
  obtain ⟨h1, h2⟩ := cutLoopClone_spec clone q L s
  cases hc : cutLoop q L with
  | error p => rw [hc] at hcut; simp at hcut
  | ok r =>
    obtain ⟨left, out'⟩ := r
    rw [hc] at hcut
    simp only [Except.ok.injEq, Prod.mk.injEq] at hcut
    obtain ⟨rfl, rfl⟩ := hcut
    obtain ⟨B, C, P, e1, rfl, e3, e4, e5⟩ := h2 _ _ hc
    have hv : ∀ e ∈ m.inner, start e.1 ≤ stop e.1 := h.1
    rw [h.takeWhile_gt] at hA
    rw [h.dropWhile_gt] at hL
    have hA' : ∀ e ∈ A, stop e.1 < start q := fun e he => by
      rw [hA] at he; simpa using (List.mem_filter.1 he).2
    have hL' : ∀ e ∈ L, start q ≤ stop e.1 := fun e he => by
      rw [hL] at he; simpa using (List.mem_filter.1 he).2
    have hB : ∀ e ∈ B, Overlap e.1 q := fun e he => by
      have h7 : e ∈ m.inner := by rw [hAL, e1]; simp [he]
      have := e3 e he
      rw [Nodit.overlaps_ok (hv e h7) hq] at this
      simp only [Except.ok.injEq, decide_eq_true_eq] at this
      exact ⟨max (start e.1) (start q), ⟨le_max_left _ _, max_le (hv e h7) this.2⟩, ⟨le_max_right _ _, max_le this.1 hq⟩⟩
    have hch : Chain (A ++ (B ++ C)) := by rw [← e1, ← hAL]; exact h
    have hC : ∀ e ∈ C, stop q < start e.1 := by
      cases C with
      | nil => simp
      | cons c C =>
        have h7 : c ∈ m.inner := by rw [hAL, e1]; simp
        have h8 := e4 c (by simp)
        rw [Nodit.overlaps_ok (hv c h7) hq] at h8
        simp only [Except.ok.injEq, decide_eq_false_iff_not, not_and, not_le] at h8
        have h9 : start q ≤ stop c.1 := hL' c (by rw [e1]; simp)
        have h10 : stop q < start c.1 := not_le.1 fun hle => not_lt.2 h9 (h8 hle)
        have h11 : Chain (c :: C) := ⟨fun e he => hch.1 e (by simp only [List.mem_append]; exact Or.inr (Or.inr he)),
          ((List.pairwise_append.1 (List.pairwise_append.1 hch.2).2.1).2.1)⟩
        rintro e (_ | ⟨_, he⟩)
        · exact h10
        · have := (List.pairwise_cons.1 h11.2).1 e he
          have := h11.1 c (by simp)
          order
    exact ⟨A, B, C, P, _, _, _, _, rfl, by rw [e5], by rw [hAL, e1, List.append_assoc], hA', hB, hC, by simp, by simp, rfl⟩

omit [LawfulPoint I] [LawfulInterval I K] in
theorem insert_noEq {comp : K → Ordering} {k : K} {v : V} {l : List (K × V)} (h : ∀ e ∈ l, comp e.1 ≠ .eq) :
    BTree.insert comp k v l = l.takeWhile (fun e => comp e.1 == .gt) ++ (k, v) :: l.dropWhile (fun e => comp e.1 == .gt) := by
  induction l with
  | nil => rfl
  | cons e l ih =>
    have := ih fun e he => h e (by simp [he])
    have h1 := h e (by simp)
    simp only [BTree.insert, List.takeWhile_cons, List.dropWhile_cons]
    cases hc : comp e.1 <;> simp_all

omit [LawfulPoint I] [LawfulInterval I K] in
theorem cloneEach_takeWhile (clone : V → σ → V × σ) (p : K → Bool) (l : List (K × V)) (s : σ) :
    (cloneEach clone l s).1.takeWhile (fun e => p e.1) = (cloneEach clone (l.takeWhile (fun e => p e.1)) s).1 ∧
    (cloneEach clone l s).1.dropWhile (fun e => p e.1) =
      (cloneEach clone (l.dropWhile (fun e => p e.1)) (cloneEach clone (l.takeWhile (fun e => p e.1)) s).2).1 := by
  induction l generalizing s with
  | nil => exact ⟨rfl, rfl⟩
  | cons e l ih =>
    obtain ⟨k, v⟩ := e
    simp only [cloneEach, List.takeWhile_cons, List.dropWhile_cons]
    cases p k with
    | false => exact ⟨rfl, rfl⟩
    | true => simp only [cloneEach, if_true, ih, and_self]

omit [LawfulPoint I] [LawfulInterval I K] in
/-- inserting between entries below and entries above, with some around -/
theorem insert_around {comp : K → Ordering} {k : K} {v : V} {A P C : List (K × V)} (hA : ∀ e ∈ A, comp e.1 = .gt)
    (hC : ∀ e ∈ C, comp e.1 = .lt) (hP : ∀ e ∈ P, comp e.1 ≠ .eq) :
    BTree.insert comp k v (A ++ P ++ C) =
      A ++ P.takeWhile (fun e => comp e.1 == .gt) ++ (k, v) :: (P.dropWhile (fun e => comp e.1 == .gt) ++ C) := by
  rw [insert_noEq (by
    intro e he
    simp only [List.mem_append] at he
    rcases he with (he | he) | he
    · simp [hA e he]
    · exact hP e he
    · simp [hC e he]), List.append_assoc,
    List.takeWhile_append_of_pos (by intro e he; simp [hA e he]), List.dropWhile_append_of_pos (by intro e he; simp [hA e he])]
  have h1 : ∀ l : List (K × V), (∀ e ∈ l, comp e.1 ≠ .eq) → (l ++ C).takeWhile (fun e => comp e.1 == .gt) = l.takeWhile (fun e => comp e.1 == .gt) ∧
      (l ++ C).dropWhile (fun e => comp e.1 == .gt) = l.dropWhile (fun e => comp e.1 == .gt) ++ C := by
    intro l
    induction l with
    | nil =>
      intro _
      cases C with
      | nil => exact ⟨rfl, rfl⟩
      | cons c C => simp [hC c (by simp)]
    | cons e l ih =>
      intro h
      have := ih fun e he => h e (by simp [he])
      simp only [List.cons_append, List.takeWhile_cons, List.dropWhile_cons]
      split_ifs <;> simp_all
  rw [(h1 P hP).1, (h1 P hP).2]
end NoditMap

section
variable [LawfulPoint I] [LawfulInterval I K]
open NoditMap

/-- **C98**, `NoditMap::cut`: compared with the ideal where a clone is the value itself, the entries returned hold the original
values; entries not overlapping `q` are not touched; and the parts left of the overlapping ones hold clones: `clone()` is called
once for each of these parts, in their order, and not otherwise. -/
theorem C98_nodit_cut {m : NoditMap K V} (h : WF m.iter) (q : Q) (hq : Valid q) (clone : CloneFn σ V) (s : σ) :
    ∃ m0 returned m' s', m.cut q = .ok (m0, returned) ∧ m.cutClone clone q s = .ok (m', returned, s') ∧
      ∃ before overlapped after parts parts', m.iter = before ++ overlapped ++ after ∧
        (∀ e ∈ overlapped, Overlap e.1 q) ∧ (∀ e ∈ before ++ after, ¬ Overlap e.1 q) ∧
        m0.iter = before ++ parts ++ after ∧ m'.iter = before ++ parts' ++ after ∧ cloneEach clone parts s = (parts', s') := by
  obtain ⟨A, B, C, P, m0, out, m', s', h1, h2, h3, h4, h5, h6, h7, h8, rfl⟩ :=
    cutClone_spec (wf_iff_chain.1 h) (valid_iff.1 hq) clone s
  refine ⟨m0, out, m', _, h1, h2, A, B, C, P, _, h3, h5, ?_, h7, h8, rfl⟩
  rintro e he ⟨p, hp1, hp2⟩
  rcases List.mem_append.1 he with he | he
  · exact absurd (le_trans hp2.1 hp1.2) (not_le.2 (h4 e he))
  · exact absurd (le_trans hp1.1 hp2.2) (not_le.2 (h6 e he))

/-- **C98**: nothing is cloned when every entry that overlaps `q` lies within `q`. -/
theorem C98_nodit_cut_whole_entries {m : NoditMap K V} (h : WF m.iter) (q : Q) (hq : Valid q) (clone : CloneFn σ V) (s : σ)
    (hw : ∀ e ∈ m.iter, Overlap e.1 q → ∀ p, Mem p e.1 → Mem p q) :
    ∃ m' returned, m.cut q = .ok (m', returned) ∧ m.cutClone clone q s = .ok (m', returned, s) ∧
      (∀ e, e ∈ m'.iter ↔ e ∈ m.iter ∧ ¬ Overlap e.1 q) := by
  obtain ⟨m0, out, m', s', h1, h2, A, B, C, P, P', h3, h4, h5, h6, h7, h8⟩ := C98_nodit_cut h q hq clone s
  obtain ⟨m1, out1, e1, e2, -, -, e3⟩ := C08_cut_exact h q hq
  rw [h1] at e1; cases e1
  have key : ∀ e, e ∈ m0.iter ↔ e ∈ m.iter ∧ ¬ Overlap e.1 q := by
    intro e
    rw [e3]
    refine ⟨?_, Or.inl⟩
    rintro (h | ⟨f, hf, ho, i, rfl, hd | hd⟩)
    · exact h
    · exfalso
      obtain ⟨p, hp⟩ := hd.1
      have := (hd.2 p).1 hp
      exact lt_irrefl _ (this.2 p (hw f hf ho p this.1))
    · exfalso
      obtain ⟨p, hp⟩ := hd.1
      have := (hd.2 p).1 hp
      exact lt_irrefl _ (this.2 p (hw f hf ho p this.1))
  have hP : P = [] := by
    cases P with
    | nil => rfl
    | cons e P =>
      exfalso
      have h9 := (wf_iff_chain.1 e2).2
      have h10 := (wf_iff_chain.1 e2).1
      have he : e ∈ m0.iter := by rw [h6]; simp
      obtain ⟨h11, h12⟩ := (key e).1 he
      rw [h3] at h11
      simp only [List.mem_append] at h11
      simp only [NoditMap.iter] at *
      rw [h6, List.append_assoc] at h9
      have hee := h10 e he
      rcases h11 with (h11 | h11) | h11
      · have := (List.pairwise_append.1 h9).2.2 e h11 e (by simp)
        order
      · exact h12 (h4 e h11)
      · have := (List.pairwise_append.1 (List.pairwise_append.1 h9).2.1).2.2 e (by simp) e h11
        order
  subst hP
  simp only [cloneEach, Prod.mk.injEq] at h8
  obtain ⟨rfl, rfl⟩ := h8
  have : m' = m0 := by cases m'; cases m0; simp only [NoditMap.iter] at h6 h7; rw [h6, h7]
  subst this
  exact ⟨_, _, h1, h2, key⟩

/-- **C98**, `NoditMap::insert_overwrite`: the new value itself is stored, the values overwritten are returned themselves, and the
parts left hold clones, as for `cut`. -/
theorem C98_nodit_insert_overwrite {m : NoditMap K V} (h : WF m.iter) (k : K) (hk : Valid k) (v : V) (clone : CloneFn σ V) (s : σ) :
    ∃ m0 returned m' s', m.insertOverwrite k v = .ok (m0, returned) ∧ m.insertOverwriteClone clone k v s = .ok (m', returned, s') ∧
      ∃ before overlapped after left left' right right', m.iter = before ++ overlapped ++ after ∧
        (∀ e ∈ overlapped, Overlap e.1 k) ∧ (∀ e ∈ before ++ after, ¬ Overlap e.1 k) ∧
        m0.iter = before ++ left ++ (k, v) :: right ++ after ∧ m'.iter = before ++ left' ++ (k, v) :: right' ++ after ∧
        cloneEach clone (left ++ right) s = (left' ++ right', s') ∧ left'.length = left.length := by
  have hk' := valid_iff.1 hk
  obtain ⟨A, B, C, P, m0, out, m', s', h1, h2, h3, h4, h5, h6, h7, h8, rfl⟩ :=
    cutClone_spec (wf_iff_chain.1 h) hk' clone s
  have hc := (wf_iff_chain.1 h).1
  obtain ⟨m1, out1, e1, e2, -, -, e3⟩ := C08_cut_exact h k hk
  rw [h1] at e1; cases e1
  have hv0 := (wf_iff_chain.1 e2).1
  have hA : ∀ e ∈ A, startsComp k e.1 = .gt := fun e he => by
    rw [startsComp_gt]; exact lt_of_le_of_lt (hc e (by simp only [NoditMap.iter]; rw [h3]; simp [he])) (h4 e he)
  have hC : ∀ e ∈ C, startsComp k e.1 = .lt := fun e he => by
    rw [startsComp_lt]; exact lt_of_le_of_lt hk' (h6 e he)
  have hP : ∀ e ∈ P, startsComp k e.1 ≠ .eq := fun e he heq => by
    rw [startsComp_eq] at heq
    have he' : e ∈ m0.iter := by simp only [NoditMap.iter]; rw [h7]; simp [he]
    have := (C08_cut_pointwise h k hk h1 (start k)).1 ⟨le_refl _, hk'⟩
    rw [getAtPoint_eq e2 he' ⟨le_of_eq heq.symm, by rw [heq]; exact hv0 e he'⟩] at this
    cases this
  have hP' : ∀ e ∈ (cloneEach clone P s).1, startsComp k e.1 ≠ .eq := fun e he => by
    have : e.1 ∈ (cloneEach clone P s).1.map Prod.fst := List.mem_map.2 ⟨e, he, rfl⟩
    rw [cloneEach_keys] at this
    obtain ⟨d, hd, hde⟩ := List.mem_map.1 this
    rw [← hde]; exact hP d hd
  obtain ⟨t1, t2⟩ := cloneEach_takeWhile clone (fun x => startsComp k x == .gt) P s
  refine ⟨m0.insertUnchecked k v, out, m'.insertUnchecked k v, (cloneEach clone P s).2, ?_, ?_, A, B, C, P.takeWhile (fun e => startsComp k e.1 == .gt),
    (cloneEach clone P s).1.takeWhile (fun e => startsComp k e.1 == .gt), P.dropWhile (fun e => startsComp k e.1 == .gt),
    (cloneEach clone P s).1.dropWhile (fun e => startsComp k e.1 == .gt), h3, h5, ?_, ?_, ?_, ?_, ?_⟩
  · simp only [insertOverwrite, invalidIntervalPanic_ok hk', bind, Except.bind, pure, Except.pure, h1]
  · simp only [insertOverwriteClone, invalidIntervalPanic_ok hk', bind, Except.bind, pure, Except.pure, h2]
  · rintro e he ⟨p, hp1, hp2⟩
    rcases List.mem_append.1 he with he | he
    · exact absurd (le_trans hp2.1 hp1.2) (not_le.2 (h4 e he))
    · exact absurd (le_trans hp1.1 hp2.2) (not_le.2 (h6 e he))
  · simp only [NoditMap.iter, insertUnchecked]; rw [h7, insert_around hA hC hP]; simp
  · simp only [NoditMap.iter, insertUnchecked]; rw [h8, insert_around hA hC hP']; simp
  · rw [List.takeWhile_append_dropWhile, List.takeWhile_append_dropWhile]
  · rw [t1, cloneEach_length]
end

namespace ZosditMap
/-- every store cloned, in order -/
def cloneStores (clone : V → σ → V × σ) : List (K × List V) → σ → List (K × List V) × σ
  | [], s => ([], s)
  | (k, vs) :: l, s => ((k, (cloneStore clone vs s).1) :: (cloneStores clone l (cloneStore clone vs s).2).1,
      (cloneStores clone l (cloneStore clone vs s).2).2)

theorem cloneStores_append (clone : V → σ → V × σ) (l l' : List (K × List V)) (s : σ) : cloneStores clone (l ++ l') s =
    ((cloneStores clone l s).1 ++ (cloneStores clone l' (cloneStores clone l s).2).1, (cloneStores clone l' (cloneStores clone l s).2).2) := by
  induction l generalizing s with
  | nil => rfl
  | cons e l ih => obtain ⟨k, v⟩ := e; simp only [List.cons_append, cloneStores, ih]

theorem cloneStore_flat (clone : V → σ → V × σ) (k : K) (vs : List V) (s : σ) :
    cloneEach clone (vs.map (fun v => (k, v))) s = ((cloneStore clone vs s).1.map (fun v => (k, v)), (cloneStore clone vs s).2) := by
  induction vs generalizing s with
  | nil => rfl
  | cons v vs ih => simp only [List.map_cons, cloneEach, cloneStore, ih]

theorem cloneStores_flat (clone : V → σ → V × σ) (l : List (K × List V)) (s : σ) :
    cloneEach clone (flatten l) s = (flatten (cloneStores clone l s).1, (cloneStores clone l s).2) := by
  induction l generalizing s with
  | nil => rfl
  | cons e l ih =>
    obtain ⟨k, vs⟩ := e
    simp only [flatten, List.flatMap_cons, cloneStores] at ih ⊢
    rw [cloneEach_append, cloneStore_flat]
    simp only [ih]

/-- the entry for a part that is left -/
def pieceOf (vs : List V) : Option (Interval I) → List (K × List V)
  | some b => [(ofInterval b, vs)]
  | none => []

theorem insertClone_eq (clone : CloneFn σ V) (vs : List V) (part : Option (Interval I)) (len : Nat) (s : σ) :
    (insertClone clone vs part len s : List (K × List V) × Nat × σ) =
      ((cloneStores clone (pieceOf vs part) s).1, len + (pieceOf vs part : List (K × List V)).length * vs.length,
        (cloneStores clone (pieceOf vs part : List (K × List V)) s).2) := by
  cases part <;> simp [insertClone, pieceOf, cloneStores]

theorem cutLoopClone_spec (clone : CloneFn σ V) (q : Q) (len : Nat) (l : List (K × List V)) (s : σ) :
    (∀ p, cutLoop q len l = .error p → cutLoopClone clone q len l s = .error p) ∧
    ∀ left out len', cutLoop q len l = .ok (left, out, len') → ∃ B C P, l = B ++ C ∧ left = P ++ C ∧
      (∀ e ∈ B, InclusiveInterval.overlaps e.1 q = .ok true) ∧
      cutLoopClone clone q len l s = .ok ((cloneStores clone P s).1 ++ C, out, len', (cloneStores clone P s).2) := by
  induction l generalizing len s with
  | nil =>
    refine ⟨fun p h => by simp [cutLoop, pure, Except.pure] at h, fun left out len' h => ?_⟩
    simp only [cutLoop, pure, Except.pure, Except.ok.injEq, Prod.mk.injEq] at h
    obtain ⟨rfl, rfl, rfl⟩ := h
    exact ⟨[], [], [], rfl, rfl, by simp, rfl⟩
  | cons e l ih =>
    obtain ⟨k, vs⟩ := e
    simp only [cutLoop, cutLoopClone, bind, Except.bind, pure, Except.pure]
    cases ho : InclusiveInterval.overlaps k q with
    | error p => simp
    | ok b =>
      cases b with
      | false =>
        simp only [Bool.not_false, if_true]
        refine ⟨by simp, fun left out len' h => ?_⟩
        simp only [Except.ok.injEq, Prod.mk.injEq] at h
        obtain ⟨rfl, rfl, rfl⟩ := h
        exact ⟨[], (k, vs) :: l, [], rfl, rfl, by simp, rfl⟩
      | true =>
        simp only [Bool.not_true, Bool.false_eq_true, if_false]
        cases cutInterval k q with
        | error p => simp
        | ok c =>
          obtain ⟨b, i, a⟩ := c
          simp only [insertClone_eq]
          generalize hn : len + (pieceOf vs b : List (K × List V)).length * vs.length +
            (pieceOf vs a : List (K × List V)).length * vs.length = n
          obtain ⟨ih1, ih2⟩ := ih (n - vs.length)
            (cloneStores clone (pieceOf vs a : List (K × List V)) (cloneStores clone (pieceOf vs b : List (K × List V)) s).2).2
          generalize (List.mapM _ vs : Res (List (K × V))) = r
          have main : ∀ x : Res (List (K × List V) × List (K × V) × Nat),
              x = (if n < vs.length then .error .overflow else
                match r with
                | .error p => .error p
                | .ok result =>
                  match cutLoop q (n - vs.length) l with
                  | .error p => .error p
                  | .ok y => .ok (pieceOf vs b ++ pieceOf vs a ++ y.1, result ++ y.2.1, y.2.2)) →
              ∀ y, y = (if n < vs.length then .error .overflow else
                match r with
                | .error p => .error p
                | .ok result =>
                  match cutLoopClone clone q (n - vs.length) l (cloneStores clone (pieceOf vs a : List (K × List V))
                      (cloneStores clone (pieceOf vs b : List (K × List V)) s).2).2 with
                  | .error p => .error p
                  | .ok y => .ok ((cloneStores clone (pieceOf vs b : List (K × List V)) s).1 ++
                      (cloneStores clone (pieceOf vs a : List (K × List V)) (cloneStores clone (pieceOf vs b : List (K × List V)) s).2).1 ++
                      y.1, result ++ y.2.1, y.2.2.1, y.2.2.2) : Res (List (K × List V) × List (K × V) × Nat × σ)) →
              (∀ p, x = .error p → y = .error p) ∧
              ∀ left out len', x = .ok (left, out, len') → ∃ B C P, (k, vs) :: l = B ++ C ∧ left = P ++ C ∧
                (∀ e ∈ B, InclusiveInterval.overlaps e.1 q = .ok true) ∧
                y = .ok ((cloneStores clone P s).1 ++ C, out, len', (cloneStores clone P s).2) := by
            rintro x rfl y rfl
            split_ifs
            · simp
            cases r with
            | error p => simp
            | ok result =>
              cases hc : cutLoop q (n - vs.length) l with
              | error p => rw [ih1 p hc]; simp
              | ok y =>
                obtain ⟨left', out', len1⟩ := y
                obtain ⟨B, C, P, rfl, rfl, h3, h5⟩ := ih2 _ _ _ hc
                refine ⟨by simp, fun left out len' h => ?_⟩
                simp only [Except.ok.injEq, Prod.mk.injEq] at h
                obtain ⟨rfl, rfl, rfl⟩ := h
                refine ⟨(k, vs) :: B, C, pieceOf vs b ++ pieceOf vs a ++ P, rfl, by simp, ?_, ?_⟩
                · rintro e (_ | ⟨_, he⟩)
                  · exact ho
                  · exact h3 e he
                · rw [h5, cloneStores_append, cloneStores_append]
                  simp only [List.append_assoc]
          refine main _ ?_ _ ?_
          · rw [← hn]
            cases a <;> cases b <;> simp only [pieceOf, List.length_nil, List.length_singleton, Nat.zero_mul, Nat.one_mul, Nat.add_zero] <;>
              (split_ifs; · rfl) <;> (cases r; · rfl) <;> simp only <;> (cases cutLoop q _ l <;> rfl)
          · rw [← hn]
            split_ifs
            · rfl
            cases r with
            | error _ => rfl
            | ok r => simp only; cases cutLoopClone clone q _ l _ <;> rfl

theorem cutCursor_entries (m : ZosditMap K V) (q : Q) :
    let cursor := BTree.upperBound (exclusiveComp (start q) .lt) m.inner
    let cursor := if cursor.key.isNone then cursor.moveNext else cursor
    cursor.before ++ cursor.after = m.inner := by
  have h : ∀ l : List (K × List V), (BTree.upperBound (exclusiveComp (start q) .lt) l).entries = l := by
    intro l
    have hl : l.takeWhile (fun e => exclusiveComp (start q) .lt e.1 != .lt) ++ l.dropWhile (fun e => exclusiveComp (start q) .lt e.1 != .lt) = l :=
      List.takeWhile_append_dropWhile
    simp only [BTree.upperBound]
    generalize l.takeWhile (fun e => exclusiveComp (start q) .lt e.1 != .lt) = pre at *
    cases hp : pre.getLast? with
    | none => simp [BTree.Cursor.entries]
    | some e =>
      simp only [BTree.Cursor.entries]
      have h1 : pre.dropLast ++ [e] = pre := List.dropLast_append_getLast? e hp
      conv_rhs => rw [← hl, ← h1]
      simp
  have h0 := h m.inner
  simp only
  generalize BTree.upperBound (exclusiveComp (start q) .lt) m.inner = c at *
  obtain ⟨x, y⟩ := c
  cases y with
  | nil => simpa [BTree.Cursor.key, BTree.Cursor.moveNext, BTree.Cursor.entries] using h0
  | cons e y => simpa [BTree.Cursor.key, BTree.Cursor.moveNext, BTree.Cursor.entries] using h0

theorem cutClone_spec (m : ZosditMap K V) (q : Q) (clone : CloneFn σ V) (s : σ) :
    (∀ p, m.cut q = .error p → m.cutClone clone q s = .error p) ∧
    ∀ m0 out, m.cut q = .ok (m0, out) → ∃ A B C P, m.inner = A ++ B ++ C ∧ m0.inner = A ++ P ++ C ∧
      (∀ e ∈ B, InclusiveInterval.overlaps e.1 q = .ok true) ∧
      m.cutClone clone q s = .ok (⟨m0.len, A ++ (cloneStores clone P s).1 ++ C⟩, out, (cloneStores clone P s).2) := by
  have hm := cutCursor_entries m q
  simp only [cut, cutClone, bind, Except.bind, pure, Except.pure] at hm ⊢
  cases invalidIntervalPanic q with
  | error _ => simp
  | ok _ =>
    simp only at hm ⊢
    generalize (if (BTree.upperBound (exclusiveComp (start q) .lt) m.inner).key.isNone = true then _ else _ : BTree.Cursor K (List V)) = c at *
    obtain ⟨h1, h2⟩ := cutLoopClone_spec clone q m.len c.after s
    cases hc : cutLoop q m.len c.after with
    | error p => rw [h1 p hc]; simp
    | ok r =>
      obtain ⟨left, out, len⟩ := r
      obtain ⟨B, C, P, e1, rfl, e3, e5⟩ := h2 _ _ _ hc
      refine ⟨by simp, fun m0 out' h => ?_⟩
      simp only [Except.ok.injEq, Prod.mk.injEq] at h
      obtain ⟨rfl, rfl⟩ := h
      exact ⟨c.before, B, C, P, by rw [← hm, e1, List.append_assoc], by simp, e3, by rw [e5]; simp⟩
end ZosditMap

section
variable [LawfulPoint I] [LawfulInterval I K]
open ZosditMap

/-- **C98**, `ZosditMap::cut`, on any map a history leads to: the values returned are the original ones, `len()` does not depend on
`clone()`, and the parts left of the entries that were cut hold clones, one call of `clone()` for each, in iteration order. -/
theorem C98_zosdit_cut (ops : List (ZOp I K V)) (q : Q) (hq : Valid q) (clone : CloneFn σ V) (s : σ) :
    ∃ m0 returned m' s', (after ops).cut q = .ok (m0, returned) ∧ (after ops).cutClone clone q s = .ok (m', returned, s') ∧
      m'.length = m0.length ∧
      ∃ before overlapped after' parts parts', (after ops).iter = before ++ overlapped ++ after' ∧
        (∀ e ∈ overlapped, Overlap e.1 q) ∧
        m0.iter = before ++ parts ++ after' ∧ m'.iter = before ++ parts' ++ after' ∧ cloneEach clone parts s = (parts', s') := by
  have hg := good_after ops
  have hq' := valid_iff.1 hq
  obtain ⟨m0, out, hcut⟩ : ∃ m0 out, (after ops).cut q = .ok (m0, out) := by
    rcases cut_ok hg.inv hq' hg.len with ⟨-, -, h⟩ | ⟨-, m', h, -⟩
    · exact ⟨_, _, h⟩
    · exact ⟨_, _, h⟩
  obtain ⟨A, B, C, P, h1, h2, h3, h4⟩ := (cutClone_spec (after ops) q clone s).2 _ _ hcut
  refine ⟨m0, out, _, _, hcut, h4, rfl, flatten A, flatten B, flatten C, flatten P, flatten (cloneStores clone P s).1, ?_, ?_, ?_, ?_, ?_⟩
  · simp only [ZosditMap.iter, h1, flatten, List.flatMap_append]
  · intro e he
    obtain ⟨f, hf, hfe⟩ := List.mem_flatMap.1 he
    obtain ⟨v, -, rfl⟩ := List.mem_map.1 hfe
    have hv : start f.1 ≤ stop f.1 := hg.inv.1 f (by rw [h1]; simp [hf])
    have := h3 f hf
    rw [Nodit.overlaps_ok hv hq'] at this
    simp only [Except.ok.injEq, decide_eq_true_eq] at this
    exact ⟨max (start f.1) (start q), ⟨le_max_left _ _, max_le hv this.2⟩, ⟨le_max_right _ _, max_le this.1 hq'⟩⟩
  · simp only [ZosditMap.iter, h2, flatten, List.flatMap_append]
  · simp only [ZosditMap.iter, flatten, List.flatMap_append]
  · rw [cloneStores_flat]
end
end Nodit
