import Verif.Lemmas.GqditGaps
import Verif.History
/-!
# C30 - C35: properties of `Gqdit`

`GqHist`, `GqHist.idsAt` (the reference function from points to identifier sets) and `GqHist.Bad` are in
`Verif/Spec.lean`; `Gqdit.eval` (running a history with the modelled functions) is in `Verif/History.lean`.
-/
set_option linter.unusedSectionVars false
namespace Nodit
open Spec PointType Gqdit

variable {I K Q D : Type} [PointType I] [IntervalType I K] [IntervalType I Q]
  [LawfulPoint I] [LawfulInterval I K] [DecidableEq D]

theorem insert_bad {g : Gqdit K D} {ids : Finset D} {k : K} (h : ¬ Valid k) :
    g.insert ids k = .error .invalidInterval := by
  unfold Gqdit.insert; rw [invalidIntervalPanic_err (by rwa [valid_iff] at h)]; rfl
theorem cutWith_bad {g : Gqdit K D} {ids : Finset D} {k : Q} (h : ¬ Valid k) :
    g.cutWithIdentifiers ids k = .error .invalidInterval := by
  unfold Gqdit.cutWithIdentifiers; rw [invalidIntervalPanic_err (by rwa [valid_iff] at h)]; rfl
theorem cutAll_bad {g : Gqdit K D} {k : Q} (h : ¬ Valid k) :
    g.cutAllIdentifiers k = .error .invalidInterval := by
  unfold Gqdit.cutAllIdentifiers; rw [invalidIntervalPanic_err (by rwa [valid_iff] at h)]; rfl

open Classical in
/-- every history either has an invalid argument and panics, or leads to the canonical representation of the
reference function -/
theorem eval_rep (h : GqHist I K D) :
    (h.Bad ∧ eval h = .error .invalidInterval) ∨ (¬ h.Bad ∧ ∃ g : Gqdit K D, eval h = .ok g ∧ Rep g h.idsAt) := by
  induction h with
  | new =>
    obtain ⟨g, h1, h2⟩ := new_rep (I := I) (K := K) (D := D)
    exact Or.inr ⟨id, g, h1, h2⟩
  | insert h ids k ih =>
    rcases ih with ⟨hb, he⟩ | ⟨hb, g, he, hr⟩
    · exact Or.inl ⟨Or.inl hb, by rw [eval, he]; rfl⟩
    · by_cases hk : Valid k
      · obtain ⟨g', h1, h2⟩ := hr.insert hk ids
        refine Or.inr ⟨by simp [GqHist.Bad, hb, hk], g', by rw [eval, he]; exact h1, ?_⟩
        have : (fun p => if Mem p k then h.idsAt p ∪ ids else h.idsAt p) = (GqHist.insert h ids k).idsAt := by
          funext p; ext x; simp only [GqHist.idsAt]; split_ifs <;> simp
        rw [← this]; exact h2
      · exact Or.inl ⟨Or.inr hk, by rw [eval, he]; exact insert_bad hk⟩
  | cutWithIdentifiers h ids q ih =>
    rcases ih with ⟨hb, he⟩ | ⟨hb, g, he, hr⟩
    · exact Or.inl ⟨Or.inl hb, by rw [eval, he]; rfl⟩
    · by_cases hk : Valid q
      · obtain ⟨g', h1, h2⟩ := hr.cutWith hk ids
        refine Or.inr ⟨by simp [GqHist.Bad, hb, hk], g', by rw [eval, he]; exact h1, ?_⟩
        have : (fun p => if Mem p q then h.idsAt p \ ids else h.idsAt p) = (GqHist.cutWithIdentifiers h ids q).idsAt := by
          funext p; ext x; simp only [GqHist.idsAt]; split_ifs <;> simp
        rw [← this]; exact h2
      · exact Or.inl ⟨Or.inr hk, by rw [eval, he]; exact cutWith_bad hk⟩
  | cutAllIdentifiers h q ih =>
    rcases ih with ⟨hb, he⟩ | ⟨hb, g, he, hr⟩
    · exact Or.inl ⟨Or.inl hb, by rw [eval, he]; rfl⟩
    · by_cases hk : Valid q
      · obtain ⟨g', h1, h2⟩ := hr.cutAll hk
        exact Or.inr ⟨by simp [GqHist.Bad, hb, hk], g', by rw [eval, he]; exact h1, h2⟩
      · exact Or.inl ⟨Or.inr hk, by rw [eval, he]; exact cutAll_bad hk⟩
  | append h o ih1 ih2 =>
    rcases ih1 with ⟨hb, he⟩ | ⟨hb, g, he, hr⟩
    · exact Or.inl ⟨Or.inl hb, by rw [eval, he]; rfl⟩
    · rcases ih2 with ⟨hb', he'⟩ | ⟨hb', g', he', hr'⟩
      · exact Or.inl ⟨Or.inr hb', by rw [eval, he, he']; rfl⟩
      · obtain ⟨g2, h1, h2⟩ := hr.append hr'
        refine Or.inr ⟨by simp [GqHist.Bad, hb, hb'], g2, by
          rw [eval, he, he']; simp only [bind, Except.bind, h1]; rfl, ?_⟩
        have : (fun p => h.idsAt p ∪ o.idsAt p) = (GqHist.append h o).idsAt := by
          funext p; ext x; simp [GqHist.idsAt]
        rw [← this]; exact h2

theorem rep_of_eval {h : GqHist I K D} {g : Gqdit K D} (hg : eval h = .ok g) : Rep g h.idsAt := by
  rcases eval_rep h with ⟨-, he⟩ | ⟨-, g', he, hr⟩
  · rw [he] at hg; cases hg
  · rw [he] at hg; cases hg; exact hr

namespace Demo
/-- a history: overlapping inserts of two identifiers, a partial cut, and an append -/
def gh : GqHist U8 (Interval U8) Nat :=
  .append
    (.cutWithIdentifiers (.insert (.insert (.insert .new {1} (iv 0 9)) {2} (iv 5 19)) {1} (iv 20 29)) {1} (iv 8 9))
    (.cutAllIdentifiers (.insert .new {1, 3} (iv 50 59)) (iv 52 52))

/-- where it leads to -/
def gq : Gqdit (Interval U8) Nat := ⟨⟨[(iv 0 4, {1}), (iv 5 7, {1, 2}), (iv 8 19, {2}), (iv 20 29, {1}), (iv 30 49, ∅),
  (iv 50 51, {1, 3}), (iv 52 52, ∅), (iv 53 59, {1, 3}), (iv 60 255, ∅)]⟩⟩
theorem gh_eval : eval gh = .ok gq := by decide
end Demo

/-- **C30**: after any history of `insert`, `cut_with_identifiers`, `cut_all_identifiers` and `append`,
`identifiers_at_point` is the reference function. -/
theorem C30_identifiers_at_point {h : GqHist I K D} {g : Gqdit K D} (hg : eval h = .ok g) (p : I) :
    g.identifiersAtPoint p = .ok (h.idsAt p) := (rep_of_eval hg).identifiers p

example : Demo.gq.identifiersAtPoint (Demo.u8 6) = .ok {1, 2} ∧ Demo.gq.identifiersAtPoint (Demo.u8 52) = .ok ∅ := by
  decide

/-- **C31**: `gaps_no_identifier(q)` lists, ascending, exactly the maximal runs of points without identifier that
share a point with `q`. -/
theorem C31_gaps_no_identifier {h : GqHist I K D} {g : Gqdit K D} (hg : eval h = .ok g) {q : Q} (hq : Valid q) :
    ∃ l, g.gapsNoIdentifier q = .ok l ∧
      ListsIntervals l (fun i => MaximalRun (fun p => g.identifiersAtPoint p = .ok ∅) i ∧ Overlap i q) := by
  have hr := rep_of_eval hg
  simp only [hr.identifiers, Except.ok.injEq]
  exact hr.gapsNoIdentifier hq

example : Demo.gq.gapsNoIdentifier (Demo.iv 40 52) = .ok [Demo.iv 30 49, Demo.iv 52 52] := by decide

/-- **C32**: `gaps_with_identifier(d, q)` lists, ascending, exactly the maximal runs of points holding no identifier
other than `d` that share a point with `q`. -/
theorem C32_gaps_with_identifier {h : GqHist I K D} {g : Gqdit K D} (hg : eval h = .ok g) (d : D) {q : Q} (hq : Valid q) :
    ∃ l, g.gapsWithIdentifier d q = .ok l ∧
      ListsIntervals l (fun i =>
        MaximalRun (fun p => ∃ ids, g.identifiersAtPoint p = .ok ids ∧ ∀ x ∈ ids, x = d) i ∧ Overlap i q) := by
  have hr := rep_of_eval hg
  obtain ⟨l, h1, h2⟩ := hr.gapsWithIdentifier d hq
  refine ⟨l, h1, ?_⟩
  have : (fun p => ∃ ids, g.identifiersAtPoint p = .ok ids ∧ ∀ x ∈ ids, x = d) = fun p => h.idsAt p ⊆ {d} := by
    funext p
    rw [hr.identifiers]
    simp [Finset.subset_iff]
  rw [this]; exact h2

example : Demo.gq.gapsWithIdentifier 1 (Demo.iv 2 52) = .ok [Demo.iv 0 4, Demo.iv 20 49, Demo.iv 52 52] ∧
    Demo.gq.gapsWithIdentifier 2 (Demo.iv 10 40) = .ok [Demo.iv 8 19, Demo.iv 30 49] ∧
    Demo.gq.gapsWithIdentifier 1 (Demo.iv 25 25) = .ok [Demo.iv 20 49] := by decide

/-- two representations of the same function are the same -/
theorem Gqdit.Rep.eq {g g' : Gqdit K D} {f : I → Finset D} (h : Rep g f) (h' : Rep g' f) : g = g' := by
  have key : ∀ {g g' : Gqdit K D}, Rep g f → Rep g' f → ∀ e ∈ g.inner.inner, e ∈ g'.inner.inner := by
    rintro g g' h h' ⟨k, v⟩ he
    obtain ⟨i, hi⟩ := h.keys _ he
    simp only at hi; subst hi
    obtain ⟨p, hp⟩ := h.wf.1 _ he
    obtain ⟨⟨k', v'⟩, he', hp', hv'⟩ := h'.entry p
    obtain ⟨j, hj⟩ := h'.keys _ he'
    simp only at hj hv' hp' hp
    subst hj
    rw [h.val he hp] at hv'
    simp only at hv'; subst hv'
    rw [MaximalRun.unique (h.maximal he) (h'.maximal he') (mem_ofInterval.1 hp) (mem_ofInterval.1 hp')]
    exact he'
  have : g.inner.inner = g'.inner.inner :=
    (wf_iff_chain.1 h.wf).ext (wf_iff_chain.1 h'.wf) fun e => ⟨key h h' e, key h' h e⟩
  cases g with | mk m => cases g' with | mk m' => cases m; cases m'; simp only at this; rw [this]

/-- **C33**: the results of two histories compare equal iff they hold the same identifiers at every point. -/
theorem C33_canonical [DecidableEq K] {h h' : GqHist I K D} {g g' : Gqdit K D} (hg : eval h = .ok g) (hg' : eval h' = .ok g') :
    g.eq g' = true ↔ ∀ p : I, g.identifiersAtPoint p = g'.identifiersAtPoint p := by
  have hr := rep_of_eval hg
  have hr' := rep_of_eval hg'
  have : g.eq g' = true ↔ g = g' := by
    unfold Gqdit.eq
    rw [beq_iff_eq]
    cases g; cases g'; simp
  rw [this]
  constructor
  · rintro rfl p; rfl
  · intro hp
    have : h.idsAt = h'.idsAt := funext fun p => by
      have := hp p
      rw [hr.identifiers, hr'.identifiers] at this
      injection this
    exact hr.eq (this ▸ hr')

/-- **C33**: inserts commute, repeating one changes nothing, and inserting in two overlapping or touching pieces is
inserting the whole. -/
theorem C33_insert_order [DecidableEq K] {h : GqHist I K D} (hb : ¬ h.Bad) (ids ids' : Finset D) {k k' w : K}
    (hk : Valid k) (hk' : Valid k') (hw : ∀ p, Mem p w ↔ Mem p k ∨ Mem p k') :
    eval ((h.insert ids k).insert ids' k') = eval ((h.insert ids' k').insert ids k) ∧
    eval ((h.insert ids k).insert ids k) = eval (h.insert ids k) ∧
    eval ((h.insert ids k).insert ids k') = eval (h.insert ids w) := by
  have hwv : Valid w := by obtain ⟨p, hp⟩ := hk; exact ⟨p, (hw p).2 (Or.inl hp)⟩
  have key : ∀ a b : GqHist I K D, ¬ a.Bad → ¬ b.Bad → (∀ p, a.idsAt p = b.idsAt p) → eval (D := D) a = eval b := by
    intro a b ha hb hab
    rcases eval_rep a with ⟨h1, -⟩ | ⟨-, g, h1, h2⟩
    · exact absurd h1 ha
    rcases eval_rep b with ⟨h3, -⟩ | ⟨-, g', h3, h4⟩
    · exact absurd h3 hb
    rw [h1, h3, h2.eq ((funext hab : a.idsAt = b.idsAt) ▸ h4)]
  refine ⟨key _ _ ?_ ?_ fun p => ?_, key _ _ ?_ ?_ fun p => ?_, key _ _ ?_ ?_ fun p => ?_⟩
  any_goals simp [GqHist.Bad, hb, hk, hk', hwv]
  · simp only [GqHist.idsAt]; split_ifs <;> ext x <;> simp <;> tauto
  · simp only [GqHist.idsAt]; split_ifs <;> ext x <;> simp
  · have := hw p
    by_cases h1 : Mem p k <;> by_cases h2 : Mem p k' <;> simp only [h1, h2, or_true, or_false, iff_true, iff_false] at this <;>
      simp [GqHist.idsAt, this, h1, h2]

example : ¬ (Demo.gh).Bad ∧ (∀ p, Mem p (Demo.iv 0 9) ↔ Mem p (Demo.iv 0 6) ∨ Mem p (Demo.iv 7 9)) := by
  refine ⟨?_, fun p => ?_⟩
  · simp only [Demo.gh, GqHist.Bad, valid_iff]; decide
  · have h1 : ∀ a b : Int, 0 ≤ a → a ≤ 255 → 0 ≤ b → b ≤ 255 → (Mem p (Demo.iv a b) ↔ a ≤ p.val ∧ p.val ≤ b) := by
      intro a b h1 h2 h3 h4
      have e1 : 0 + (a - 0) % (255 - 0 + 1) = a := by omega
      have e2 : 0 + (b - 0) % (255 - 0 + 1) = b := by omega
      simp only [Mem, Demo.iv, start, stop, Demo.u8, BInt.wrapInt, BInt.le_def, e1, e2]
    rw [h1 _ _ (by omega) (by omega) (by omega) (by omega), h1 _ _ (by omega) (by omega) (by omega) (by omega),
      h1 _ _ (by omega) (by omega) (by omega) (by omega)]
    omega

/-- **C34**: a history panics iff some interval argument contains no point, and then it is the
`invalid_interval_panic`. -/
theorem C34_history_panics_iff (h : GqHist I K D) :
    ((∃ p, eval (K := K) h = .error p) ↔ h.Bad) ∧ ∀ p, eval (K := K) h = .error p → p = .invalidInterval := by
  rcases eval_rep h with ⟨hb, he⟩ | ⟨hb, g, he, -⟩ <;> rw [he]
  · exact ⟨⟨fun _ => hb, fun _ => ⟨_, rfl⟩⟩, fun p hp => (by cases hp; rfl)⟩
  · exact ⟨⟨fun ⟨p, hp⟩ => (by cases hp), fun h => absurd h hb⟩, fun p hp => (by cases hp)⟩

/-- **C34**: the next call, with a query of any interval type, panics iff its argument contains no point;
`identifiers_at_point` and `append` never panic. -/
theorem C34_call_panics_iff {h h' : GqHist I K D} {g g' : Gqdit K D} (hg : eval h = .ok g) (hg' : eval h' = .ok g')
    (ids : Finset D) (d : D) (k : K) (q : Q) (p : I) :
    ((∃ e, g.insert ids k = .error e) ↔ ¬ Valid k) ∧ ((∃ e, g.cutWithIdentifiers ids q = .error e) ↔ ¬ Valid q) ∧
    ((∃ e, g.cutAllIdentifiers q = .error e) ↔ ¬ Valid q) ∧ ((∃ e, g.gapsNoIdentifier q = .error e) ↔ ¬ Valid q) ∧
    ((∃ e, g.gapsWithIdentifier d q = .error e) ↔ ¬ Valid q) ∧ (∃ r, g.identifiersAtPoint p = .ok r) ∧
    (∃ r, g.append g' = .ok r) := by
  have hr := rep_of_eval hg
  have hr' := rep_of_eval hg'
  refine ⟨?_, ?_, ?_, ?_, ?_, ⟨_, hr.identifiers p⟩, ?_⟩
  · by_cases hk : Valid k
    · obtain ⟨_, h1, -⟩ := hr.insert hk ids; simp [h1, hk]
    · simp [insert_bad hk, hk]
  · by_cases hk : Valid q
    · obtain ⟨_, h1, -⟩ := hr.cutWith hk ids; simp [h1, hk]
    · simp [cutWith_bad hk, hk]
  · by_cases hk : Valid q
    · obtain ⟨_, h1, -⟩ := hr.cutAll hk; simp [h1, hk]
    · simp [cutAll_bad hk, hk]
  · by_cases hk : Valid q
    · obtain ⟨_, h1, -⟩ := hr.gapsNoIdentifier hk; simp [h1, hk]
    · have : g.gapsNoIdentifier q = .error .invalidInterval := by
        unfold Gqdit.gapsNoIdentifier; rw [invalidIntervalPanic_err (by rwa [valid_iff] at hk)]; rfl
      simp [this, hk]
  · by_cases hk : Valid q
    · obtain ⟨_, h1, -⟩ := hr.gapsWithIdentifier d hk; simp [h1, hk]
    · have : g.gapsWithIdentifier d q = .error .invalidInterval := by
        unfold Gqdit.gapsWithIdentifier; rw [invalidIntervalPanic_err (by rwa [valid_iff] at hk)]; rfl
      simp [this, hk]
  · obtain ⟨_, h1, -⟩ := hr.append hr'
    exact ⟨_, h1⟩

example : (GqHist.insert Demo.gh {4} (Demo.iv 9 5)).Bad ∧ eval (GqHist.insert Demo.gh {4} (Demo.iv 9 5)) = .error .invalidInterval :=
  ⟨by simp only [Demo.gh, GqHist.Bad, valid_iff]; decide, by decide⟩

/-- **C35**, the part that holds: `append` never fails, the receiver then has the union of the identifiers at every
point, and the other holds no identifiers. The rest of the property - that the other is as good as new - is false,
see `C35_appended_other_is_broken`. -/
theorem C35_append_partial {h h' : GqHist I K D} {a b : Gqdit K D} (ha : eval h = .ok a) (hb : eval h' = .ok b) :
    ∃ a' b', a.append b = .ok (a', b') ∧
      (∀ p x, (∃ s, a'.identifiersAtPoint p = .ok s ∧ x ∈ s) ↔
        (∃ s, a.identifiersAtPoint p = .ok s ∧ x ∈ s) ∨ (∃ s, b.identifiersAtPoint p = .ok s ∧ x ∈ s)) ∧
      ∀ p : I, b'.identifiersAtPoint p = .ok ∅ := by
  have hr := rep_of_eval ha
  have hr' := rep_of_eval hb
  obtain ⟨a', h1, h2⟩ := hr.append hr'
  refine ⟨a', _, h1, fun p x => ?_, fun p => rfl⟩
  rw [h2.identifiers, hr.identifiers, hr'.identifiers]
  simp

/-- **C35** is false as stated: whatever the histories, after `a.append(&mut b)` inserting into `b` has no effect
at all, and `b` reports no gaps, although it holds no identifier anywhere. -/
theorem C35_appended_other_is_broken {h h' : GqHist I K D} {a b a' b' : Gqdit K D} (ha : eval h = .ok a)
    (hb : eval h' = .ok b) (hab : a.append b = .ok (a', b')) :
    (∀ (ids : Finset D) (k : K), Valid k → b'.insert ids k = .ok b') ∧
    (∀ q : Q, Valid q → b'.gapsNoIdentifier q = .ok []) ∧ (∀ (d : D) (q : Q), Valid q → b'.gapsWithIdentifier d q = .ok []) := by
  have hr := rep_of_eval ha
  have hr' := rep_of_eval hb
  obtain ⟨a1, h1, h2⟩ := hr.append hr'
  rw [h1] at hab; cases hab
  have hnil : Chain (⟨[]⟩ : NoditMap K (Finset D)).inner := Chain.nil
  have hwf : WF (⟨[]⟩ : NoditMap K (Finset D)).iter := wf_iff_chain.2 hnil
  refine ⟨fun ids k hk => ?_, fun q hq => ?_, fun d q hq => ?_⟩
  · unfold Gqdit.insert
    rw [invalidIntervalPanic_ok (valid_iff.1 hk)]
    obtain ⟨m, out, e1, e2, e3, e4, e5⟩ := C08_cut_exact hwf k hk
    have hout : out = [] := List.eq_nil_iff_forall_not_mem.2 fun e he => by
      obtain ⟨f, hf, -⟩ := (e4 e).1 he
      simp [NoditMap.iter] at hf
    have hm : m = ⟨[]⟩ := by
      have : m.iter = [] := List.eq_nil_iff_forall_not_mem.2 fun e he => by
        rcases (e5 e).1 he with ⟨hf, -⟩ | ⟨f, hf, -⟩ <;> simp [NoditMap.iter] at hf
      cases m; simp only [NoditMap.iter] at this; rw [this]
    simp only [bind, Except.bind, e1, hout, hm, putBack, pure, Except.pure]
    split_ifs <;> rfl
  · unfold Gqdit.gapsNoIdentifier
    rw [invalidIntervalPanic_ok (valid_iff.1 hq), NoditMap.overlapping_ok hnil (valid_iff.1 hq)]
    rfl
  · have e1 : start (⟨MIN, start q⟩ : Interval I) ≤ stop (⟨MIN, start q⟩ : Interval I) := min_le _
    have e2 : start (⟨stop q, MAX⟩ : Interval I) ≤ stop (⟨stop q, MAX⟩ : Interval I) := le_max _
    have e3 : (ui (start q) : Res (Interval I)) = .ok ⟨MIN, start q⟩ := by
      unfold ui mkChecked; rw [invalidIntervalPanic_ok e1]; rfl
    have e4 : (iu (stop q) : Res (Interval I)) = .ok ⟨stop q, MAX⟩ := by
      unfold iu mkChecked; rw [invalidIntervalPanic_ok e2]; rfl
    unfold Gqdit.gapsWithIdentifier expandGapsAtPointLeft expandGapsAtPointRight
    rw [invalidIntervalPanic_ok (valid_iff.1 hq), NoditMap.overlapping_ok hnil (valid_iff.1 hq), e3, e4]
    simp only [bind, Except.bind, NoditMap.overlapping_ok hnil e1, NoditMap.overlapping_ok hnil e2]
    rfl

example : ∃ a' b', Demo.gq.append Demo.gq = .ok (a', b') ∧ a' = Demo.gq ∧ b'.inner.iter = [] :=
  ⟨Demo.gq, ⟨⟨[]⟩⟩, by decide⟩

end Nodit
