import Verif.Props.MapProps
/-!
# C17: building a `NoditMap` from a sequence
-/
set_option linter.unusedSectionVars false
namespace Nodit
open Spec PointType NoditMap

variable {I K Q V : Type} [PointType I] [IntervalType I K] [IntervalType I Q]
  [LawfulPoint I] [LawfulInterval I K]

/-- no two items share a point -/
def Disjoint' (l : List (K × V)) : Prop := l.Pairwise (fun a b => ¬ Overlap a.1 b.1)

omit [LawfulInterval I K] in
theorem fromIterStrictFrom_append {m : NoditMap K V} (h : WF m.iter) {pre : List (K × V)}
    (hv : ∀ e ∈ pre, Valid e.1) (hd : Disjoint' pre) (hm : ∀ e ∈ pre, ∀ d ∈ m.iter, ¬ Overlap d.1 e.1)
    (rest : List (K × V)) :
    ∃ m' : NoditMap K V, m.fromIterStrictFrom (pre ++ rest) = m'.fromIterStrictFrom rest ∧ WF m'.iter ∧
      (∀ e, e ∈ m'.iter ↔ e ∈ m.iter ∨ e ∈ pre) ∧ m'.len = m.len + pre.length := by
  induction pre generalizing m with
  | nil => exact ⟨m, rfl, h, by simp, by simp⟩
  | cons a pre ih =>
    obtain ⟨k, v⟩ := a
    have hd' := List.pairwise_cons.1 hd
    obtain ⟨m', r, h1, h2, -, h4⟩ := C06_insert_strict h k (hv (k, v) (by simp)) v
    obtain ⟨rfl, h5, h6⟩ := h4 (fun e he => hm (k, v) (by simp) e he)
    obtain ⟨m'', e1, e2, e3, e4⟩ := ih h2 (fun e he => hv e (by simp [he])) hd'.2 (fun e he d hdm => by
      rcases (h5 d).1 hdm with hdm | rfl
      · exact hm e (by simp [he]) d hdm
      · exact hd'.1 e he)
    refine ⟨m'', ?_, e2, fun e => ?_, ?_⟩
    · rw [List.cons_append, fromIterStrictFrom, h1]; exact e1
    · rw [e3, h5, List.mem_cons]; tauto
    · rw [e4, h6, List.length_cons]; omega

omit [LawfulInterval I K] in
/-- **C17**: a sequence of valid, pairwise disjoint items gives the map holding exactly these entries. -/
theorem C17_from_iter_strict_disjoint {l : List (K × V)} (hv : ∀ e ∈ l, Valid e.1)
    (hd : l.Pairwise (fun a b => ¬ Overlap a.1 b.1)) :
    ∃ m, fromIterStrict l = .ok (.ok m) ∧ fromSliceStrict l = .ok (.ok m) ∧ WF m.iter ∧
      (∀ e, e ∈ m.iter ↔ e ∈ l) ∧ m.len = l.length := by
  obtain ⟨m, h1, h2, h3, h4⟩ := fromIterStrictFrom_append (wf_new (K := K) (V := V) (I := I)) hv hd
    (by simp [new, iter]) []
  rw [List.append_nil] at h1
  have h1' : fromIterStrict l = .ok (.ok m) := by rw [fromIterStrict, h1]; rfl
  exact ⟨m, h1', h1', h2, fun e => by rw [h3]; simp [new, iter], by rw [h4]; simp [new, len]⟩

omit [LawfulInterval I K] in
/-- **C17**: with a first offending item the result is the error carrying that item's value if it overlaps an
earlier one, and the panic if it is invalid; later items play no role. -/
theorem C17_from_iter_strict_first_offender {pre post : List (K × V)} {k : K} {v : V}
    (hv : ∀ e ∈ pre, Valid e.1) (hd : pre.Pairwise (fun a b => ¬ Overlap a.1 b.1)) :
    (Valid k → (∃ e ∈ pre, Overlap e.1 k) → fromIterStrict (pre ++ (k, v) :: post) = .ok (.error ⟨v⟩)) ∧
    (¬ Valid k → fromIterStrict (pre ++ (k, v) :: post) = .error .invalidInterval) := by
  obtain ⟨m, h1, h2, h3, h4⟩ := fromIterStrictFrom_append (wf_new (K := K) (V := V) (I := I)) hv hd
    (by simp [new, iter]) ((k, v) :: post)
  rw [fromIterStrict, h1]
  constructor
  · rintro hk ⟨e, he, ho⟩
    obtain ⟨m', r, e1, -, e2, -⟩ := C06_insert_strict h2 k hk v
    obtain ⟨rfl, rfl⟩ := e2 ⟨e, (h3 e).2 (Or.inr he), ho⟩
    rw [fromIterStrictFrom, e1]; rfl
  · intro hk
    rw [fromIterStrictFrom, panic_insertStrict hk]; rfl

omit [LawfulInterval I K] in
/-- **C17**: the same for a slice. -/
theorem C17_from_slice_strict_first_offender {pre post : List (K × V)} {k : K} {v : V}
    (hv : ∀ e ∈ pre, Valid e.1) (hd : pre.Pairwise (fun a b => ¬ Overlap a.1 b.1)) :
    (Valid k → (∃ e ∈ pre, Overlap e.1 k) → fromSliceStrict (pre ++ (k, v) :: post) = .ok (.error ⟨v⟩)) ∧
    (¬ Valid k → fromSliceStrict (pre ++ (k, v) :: post) = .error .invalidInterval) :=
  C17_from_iter_strict_first_offender hv hd

omit [LawfulInterval I K] in
theorem exists_first_offender {l : List (K × V)} (h : ¬ l.Pairwise (fun a b => ¬ Overlap a.1 b.1)) :
    ∃ pre a post, l = pre ++ a :: post ∧ pre.Pairwise (fun a b => ¬ Overlap a.1 b.1) ∧
      ∃ e ∈ pre, Overlap e.1 a.1 := by
  rw [← List.reverse_reverse l] at h ⊢
  generalize l.reverse = l at h ⊢
  induction l with
  | nil => simp at h
  | cons a l ih =>
    rw [List.reverse_cons] at h ⊢
    generalize l.reverse = l at *
    by_cases hl : l.Pairwise (fun a b => ¬ Overlap a.1 b.1)
    · refine ⟨l, a, [], rfl, hl, ?_⟩
      by_contra hc
      simp only [not_exists, not_and] at hc
      refine h (List.pairwise_append.2 ⟨hl, by simp, ?_⟩)
      rintro e he b hb
      rw [List.mem_singleton] at hb; subst hb
      exact hc e he
    · obtain ⟨pre, b, post, rfl, h1, h2⟩ := ih hl
      exact ⟨pre, b, post ++ [a], by simp, h1, h2⟩

omit [LawfulInterval I K] in
/-- **C17**: on valid intervals `from_iter_strict` succeeds iff no two items overlap. -/
theorem C17_from_iter_strict_iff {l : List (K × V)} (hv : ∀ e ∈ l, Valid e.1) :
    (∃ m, fromIterStrict l = .ok (.ok m)) ↔ l.Pairwise (fun a b => ¬ Overlap a.1 b.1) := by
  constructor
  · rintro ⟨m, hm⟩
    by_contra h
    obtain ⟨pre, a, post, rfl, h1, h2⟩ := exists_first_offender h
    have := (C17_from_iter_strict_first_offender (k := a.1) (v := a.2) (post := post)
      (fun e he => hv e (by simp [he])) h1).1 (hv a (by simp)) h2
    rw [this] at hm; cases hm
  · intro h
    obtain ⟨m, h1, -⟩ := C17_from_iter_strict_disjoint hv h
    exact ⟨m, h1⟩

omit [LawfulInterval I K] in
/-- **C17**: the resulting map does not depend on the order of the input. -/
theorem C17_from_iter_strict_order_independent {l l' : List (K × V)} (hp : l.Perm l') (hv : ∀ e ∈ l, Valid e.1)
    {m : NoditMap K V} (h : fromIterStrict l = .ok (.ok m)) : fromIterStrict l' = .ok (.ok m) := by
  have hd := (C17_from_iter_strict_iff hv).1 ⟨m, h⟩
  have hd' : l'.Pairwise (fun a b => ¬ Overlap a.1 b.1) :=
    (hp.pairwise_iff (fun h h' => h (overlap_comm.1 h'))).1 hd
  obtain ⟨m1, h1, -, h2, h3, -⟩ := C17_from_iter_strict_disjoint hv hd
  obtain ⟨m2, e1, -, e2, e3, -⟩ := C17_from_iter_strict_disjoint (fun e he => hv e (hp.mem_iff.2 he)) hd'
  rw [h] at h1; cases h1
  have : m.inner = m2.inner := (wf_iff_chain.1 h2).ext (wf_iff_chain.1 e2) (fun e => by
    have := h3 e; have := e3 e; have := hp.mem_iff (a := e)
    simp only [iter] at *; tauto)
  rw [e1]; cases m; cases m2; cases this; rfl

example : ∃ m, fromIterStrict [(Demo.iv 10 12, 1), (Demo.iv 0 4, 2), (Demo.iv 5 9, 3)] = .ok (.ok m) ∧
    m.iter = [(Demo.iv 0 4, 2), (Demo.iv 5 9, 3), (Demo.iv 10 12, 1)] := ⟨_, rfl, by decide⟩
/-- the third item overlaps the first; the fourth, invalid, is not reached -/
example : fromIterStrict [(Demo.iv 10 12, 1), (Demo.iv 0 4, 2), (Demo.iv 9 10, 3), (Demo.iv 9 8, 3)]
    = .ok (.error ⟨3⟩) := by decide
example : fromSliceStrict [(Demo.iv 10 12, 1), (Demo.iv 0 4, 2), (Demo.iv 9 8, 3), (Demo.iv 9 10, 3)] = .error .invalidInterval := by
  decide

end Nodit
