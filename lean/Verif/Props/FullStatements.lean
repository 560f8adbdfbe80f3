import Verif.Props.ZosditClients
import Verif.Props.SerdeProps
import Verif.Props.Intervals
import Verif.Props.GqditProps
/-!
# The full statements of the properties that are proved only in part

Ten of the properties are false of the code as it is. Their theorems are named `_partial`. Here the full English statement of
each is written down as a proposition, with no hypothesis added, and refuted at `u8` intervals, so that what is missing from each
partial theorem is exactly visible, and it is certain that no proof of the full statement has been overlooked.
-/
set_option linter.unusedSectionVars false
namespace Nodit
open Spec PointType ZosditMap ZClients Gqdit

section statements
variable (I K V D : Type) [PointType I] [IntervalType I K] [LawfulPoint I] [LawfulInterval I K] [DecidableEq D]

/-- **C27** in full: `translate` in a build without overflow checks makes a valid interval of a valid one. -/
def C27_Full (lo hi : Int) [Fact (lo ≤ hi)] : Prop :=
  ∀ (k : Interval (BInt lo hi)) (d : BInt lo hi), Valid k →
    ∃ r : Interval (BInt lo hi), InclusiveInterval.translate BInt.addWrapping k d = .ok r ∧ Valid r

/-- **C35** in full: after `append` the receiver has the identifiers of both at every point, and the other has none and every later
insert into it takes effect. -/
def C35_Full : Prop :=
  ∀ (h h' : GqHist I K D) (a b : Gqdit K D), eval h = .ok a → eval h' = .ok b →
    ∃ a' b', a.append b = .ok (a', b') ∧
      (∀ p x, (∃ s, a'.identifiersAtPoint p = .ok s ∧ x ∈ s) ↔
        (∃ s, a.identifiersAtPoint p = .ok s ∧ x ∈ s) ∨ (∃ s, b.identifiersAtPoint p = .ok s ∧ x ∈ s)) ∧
      (∀ p : I, b'.identifiersAtPoint p = .ok ∅) ∧
      ∀ (ids : Finset D) (k : K), Valid k → ∃ b'', b'.insert ids k = .ok b'' ∧ ∀ p : I, Mem p k → b''.identifiersAtPoint p = .ok ids

/-- **C39** in full, for an interval that is accepted: one entry with the value is added, in order, after all entries with an
identical interval. -/
def C39_Full : Prop :=
  ∀ (ops : List (ZOp I K V)) (k : K) (v : V) (pick : Nat), Valid k → (∀ e ∈ (after ops).iter, ZeroOverlap e.1 k) →
    ∃ m' l1 k' l2, (after ops).insertStrictBack k v pick = .ok (m', .ok ()) ∧
      (after ops).iter = l1 ++ l2 ∧ m'.iter = l1 ++ (k', v) :: l2 ∧ SameInterval k' k ∧
      (∀ e ∈ l1, AtOrBefore e.1 k) ∧ (∀ e ∈ l2, AtOrBefore k e.1) ∧ ∀ e ∈ l2, ¬ SameInterval e.1 k

/-- **C40** in full: `v` is returned iff it is the value of the last entry containing the point. -/
def C40_Full : Prop :=
  ∀ (ops : List (ZOp I K V)) (p : I) (v : V), (after ops).getLastValueAtPoint p = some v ↔
    ∃ l1 k l2, (after ops).iter = l1 ++ (k, v) :: l2 ∧ Mem p k ∧ ∀ e ∈ l2, ¬ Mem p e.1

/-- **C42** in full: `len` is the number of entries, and `is_empty` says whether there are none. -/
def C42_Full : Prop :=
  ∀ ops : List (ZOp I K V), (after ops).length = (after ops).iter.length ∧ ((after ops).isEmpty = true ↔ (after ops).iter = [])

/-- **C43** in full: `cut` cuts every entry. -/
def C43_Full : Prop :=
  ∀ (ops : List (ZOp I K V)) (q : K), Valid q →
    ∃ m' returned, (after ops).cut q = .ok (m', returned) ∧ CutAll q (after ops).iter m'.iter returned

/-- **C47** in full: reading any input ends with a map holding exactly these entries or with an error, without panic. -/
def C47_Full (E : Type) : Prop :=
  ∀ input : List (Except E (K × V)), ∃ r, NoditMap.deserialize input = .ok r ∧
    ∀ m : NoditMap K V, r = .ok m → ∃ l : List (K × V), input = l.map .ok ∧ WF m.iter ∧ ∀ e, e ∈ m.iter ↔ e ∈ l

/-- **C48** in full: the announced length is right, and reading back gives an equal map. -/
def C48_Full (E : Type) : Prop :=
  ∀ (ops : List (ZOp I K V)) (picks : Nat → Nat),
    (after ops).serialize.hint = some (after ops).serialize.elems.length ∧
    ZosditMap.deserialize (E := E) ((after ops).serialize.elems.map .ok) picks = .ok (.ok (after ops))

/-- **C49** in full, for reading: a `Gqdit` that could be read covers every point. -/
def C49_Full (E : Type) : Prop :=
  ∀ (input : List (Except E (K × Finset D))) (g : Gqdit K D), Gqdit.deserialize input = .ok (.ok g) →
    ∀ p : I, ∃ e ∈ g.inner.iter, Mem p e.1

/-- **C94** in full: clients working within disjoint regions do not observe each other. -/
def C94_Full (ι : Type) [DecidableEq ι] : Prop :=
  ∀ (ops : List (ZOp I K V)) (region : ι → Interval I), (∀ c d, c ≠ d → ¬ Overlap (region c) (region d)) →
    (∀ e ∈ (after ops).iter, ∀ c d, Overlap e.1 (region c) → Overlap e.1 (region d) → c = d) →
    ∀ sched : List (ι × ZOp I K V), (∀ x ∈ sched, x.2.Within (region x.1)) → ∀ c : ι,
      own c ((sched.map Prod.fst).zip ((after ops).run (sched.map Prod.snd)).2) = ((after ops).run (own c sched)).2 ∧
      SameEntries (inRegion (region c) ((after ops).run (sched.map Prod.snd)).1.iter)
        (inRegion (region c) ((after ops).run (own c sched)).1.iter)
end statements

/-! ## Refutations -/

/-- **C27** in full is false. -/
theorem C27_full_refuted : ¬ C27_Full 0 (2 ^ 8 - 1) := by
  intro h
  obtain ⟨i, d, r, h1, h2, h3⟩ := C27_translate_can_build_invalid_interval
  obtain ⟨r', h4, h5⟩ := h i d h1
  rw [h2] at h4
  cases h4
  exact h3 h5

/-- **C35** in full is false. -/
theorem C35_full_refuted : ¬ C35_Full Demo.U8 (Interval Demo.U8) Nat := by
  intro h
  obtain ⟨a', b', h1, -, h3, h4⟩ := h .new .new _ _ rfl rfl
  obtain ⟨h5, -⟩ := C35_appended_other_is_broken (Q := Interval Demo.U8) (h := .new) (h' := .new) rfl rfl h1
  have hv : Valid (Demo.iv 0 4) := valid_iff.2 (by decide)
  obtain ⟨b'', h6, h7⟩ := h4 {1} (Demo.iv 0 4) hv
  rw [h5 _ _ hv] at h6
  cases h6
  have h8 := h7 (Demo.u8 2) (by constructor <;> decide)
  rw [h3] at h8
  simp at h8

/-- **C39** in full is false. -/
theorem C39_full_refuted : ¬ C39_Full Demo.U8 (Interval Demo.U8) Nat := by
  intro h
  obtain ⟨ops, m, h1, h2, h3⟩ := C39_not_at_the_back
  have hz : ZeroOverlap (Demo.iv 4 4) (Demo.iv 4 4) := (zeroOverlap_iff (by decide) (by decide)).2 (by decide)
  obtain ⟨m', l1, k', l2, h4, h5, h6, -, -, -, h7⟩ := h ops (Demo.iv 4 4) 3 0 (valid_iff.2 (by decide)) (by
    rw [h1]; intro e he; simp at he; rcases he with rfl | rfl <;> exact hz)
  rw [h2] at h4
  cases h4
  rw [h3] at h6
  have hs : ∀ v, (Demo.iv 4 4, v) ∈ l2 → False := fun v hv => h7 _ hv (fun _ => Iff.rfl)
  rcases l1 with _ | ⟨a, _ | ⟨b, _ | ⟨c, l1⟩⟩⟩
  · simp at h6
  · simp at h6; exact hs 2 (by rw [← h6.2.2]; simp)
  · simp at h6
  · simp at h6

/-- **C40** in full is false. -/
theorem C40_full_refuted : ¬ C40_Full Demo.U8 (Interval Demo.U8) Nat := by
  intro h
  obtain ⟨ops, h1, h2⟩ := C40_misses_end_points
  have := (h ops (Demo.u8 4) 1).2 ⟨[], Demo.iv 0 4, [(Demo.iv 8 12, 2)], h1, by constructor <;> decide, by
    intro e he; simp at he; subst he; intro hm; exact absurd hm.1 (by decide)⟩
  rw [h2] at this
  cases this

/-- **C42** in full is false. -/
theorem C42_full_refuted : ¬ C42_Full Demo.U8 (Interval Demo.U8) Nat := by
  intro h
  obtain ⟨ops, h1, h2, -⟩ := C42_len_wrong_after_remove
  have := (h ops).1
  rw [h1, h2] at this
  cases this

theorem no_overlap_of_cutAll_nil {I K Q V : Type} [PointType I] [IntervalType I K] [IntervalType I Q] {q : Q}
    {l left returned : List (K × V)} (h : CutAll q l left returned) (hr : returned = []) : ∀ e ∈ l, ¬ Overlap e.1 q := by
  induction h with
  | nil => simp
  | cons h1 _ ih =>
    obtain ⟨ha, hb⟩ := List.append_eq_nil_iff.1 hr
    intro e he
    rcases List.mem_cons.1 he with rfl | he
    · rintro ⟨p, hp⟩
      rcases h1.1 with ⟨hn, -⟩ | ⟨i, -, hi⟩
      · exact hn p hp
      · rw [ha] at hi; cases hi
    · exact ih hb e he

/-- **C43** in full is false. -/
theorem C43_full_refuted : ¬ C43_Full Demo.U8 (Interval Demo.U8) Nat := by
  intro h
  obtain ⟨ops, h1, h2⟩ := C43_cut_misses
  obtain ⟨m', r, h3, h4⟩ := h ops (Demo.iv 4 6) (valid_iff.2 (by decide))
  rw [h2] at h3
  cases h3
  rw [h1] at h4
  exact no_overlap_of_cutAll_nil h4 rfl (Demo.iv 5 8, 2) (by simp)
    ⟨Demo.u8 5, ⟨by decide, by decide⟩, ⟨by decide, by decide⟩⟩

/-- **C47** in full is false. -/
theorem C47_full_refuted : ¬ C47_Full Demo.U8 (Interval Demo.U8) Nat Unit := by
  intro h
  obtain ⟨input, h1⟩ := C47_panics
  obtain ⟨r, h2, -⟩ := h input
  rw [h1] at h2
  cases h2

/-- **C48** in full is false. -/
theorem C48_full_refuted : ¬ C48_Full Demo.U8 (Interval Demo.U8) Nat Unit := by
  intro h
  obtain ⟨⟨ops, m, -, h1, h2⟩, -⟩ := C48_not_equal
  rw [(h ops _).2] at h1
  cases h1
  exact h2 rfl

/-- **C49** in full is false. -/
theorem C49_full_refuted : ¬ C49_Full Demo.U8 (Interval Demo.U8) Nat Unit := by
  intro h
  obtain ⟨e, he, -⟩ := h [] ⟨⟨[]⟩⟩ (by decide) (Demo.u8 2)
  simp [NoditMap.iter] at he

/-- **C94** in full is false. -/
theorem C94_full_refuted : ¬ C94_Full Demo.U8 (Interval Demo.U8) Nat Bool := by
  intro h
  have h1 := (h [] (fun c => if c then Demo.iv 100 200 else Demo.iv 0 50) (by
    intro c d hcd
    rintro ⟨p, hp, hp'⟩
    cases c <;> cases d
    · exact hcd rfl
    · have h1 := hp.2; have h2 := hp'.1
      exact absurd (le_trans h2 h1) (by decide)
    · have h1 := hp.1; have h2 := hp'.2
      exact absurd (le_trans h1 h2) (by decide)
    · exact hcd rfl) (fun e he => by cases he)
    [(true, .insertStrictBack (Demo.iv 100 110) 2 0), (false, .insertStrictBack (Demo.iv 0 5) 1 0), (false, .removeLastValueAtPoint (Demo.u8 5))]
    (by
      intro x hx p hp
      simp only [List.mem_cons, List.not_mem_nil, or_false] at hx
      rcases hx with rfl | rfl | rfl
      · exact ⟨le_trans (by decide) hp.1, le_trans hp.2 (by decide)⟩
      · exact ⟨le_trans (by decide) hp.1, le_trans hp.2 (by decide)⟩
      · exact ⟨le_trans (by decide) hp.1, le_trans hp.2 (by decide)⟩) false).1
  have h2 : [.ok (.strict (.ok ())), .ok (.optValue none)] = ([.ok (.strict (.ok ())), .ok (.optValue (some 1))] : List (Res (ZOut (Interval Demo.U8) Nat))) := h1
  simp at h2
end Nodit
