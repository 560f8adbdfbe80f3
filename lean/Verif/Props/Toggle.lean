import Verif.Props.Replay
import Verif.Props.Algebra
import Mathlib.Algebra.Ring.Parity
/-!
# C141: toggling ranges

A client switches ranges of points on and off: toggling an interval turns on what is off in it and off what is on.
-/
set_option linter.unusedSectionVars false
namespace Nodit.Toggle
open Spec PointType NoditMap NoditSet

variable {I K : Type} [PointType I] [IntervalType I K] [LawfulPoint I] [LawfulInterval I K]

/-- `for g in gaps { s.insert_merge_touching(g).unwrap(); }`. A client, models no lines of `/repo`. -/
def insertAll (s : NoditSet K) : List K → Res (NoditSet K)
  | [] => pure s
  | k :: l => do
    match ← s.insertMergeTouching (I := I) k with
    | (s, .ok _) => insertAll s l
    | (_, .error _) => .error .explicit

/-- `let gaps: Vec<_> = s.gaps_trimmed(q).collect(); s.cut(q); for g in gaps { s.insert_merge_touching(g).unwrap(); }`.
A client, models no lines of `/repo`. -/
def toggle (s : NoditSet K) (q : Interval I) : Res (NoditSet K) := do
  let gaps ← s.gapsTrimmed q
  let (s, _) ← s.cut q
  insertAll (I := I) s gaps

/-- one after the other. A client, models no lines of `/repo`. -/
def toggleAll (s : NoditSet K) : List (Interval I) → Res (NoditSet K)
  | [] => pure s
  | q :: l => do
    let s ← toggle s q
    toggleAll s l

/-- valid, ascending, and no two intervals touch -/
def Tidy (s : NoditSet K) : Prop := Ascending (I := I) s.iter ∧ Coalesced s.inner.iter

theorem insertAll_ok (l : List K) {s : NoditSet K} (h : Tidy (I := I) s) (hl : Ascending (I := I) l)
    (hd : ∀ p, (∃ k ∈ l, Mem p k) → p ∉ points s) :
    ∃ s', insertAll (I := I) s l = .ok s' ∧ Tidy (I := I) s' ∧ ∀ p, p ∈ points s' ↔ p ∈ points s ∨ ∃ k ∈ l, Mem p k := by
  induction l generalizing s with
  | nil => exact ⟨s, rfl, h, by simp⟩
  | cons k l ih =>
    have hk := hl.1 k (by simp)
    have hlt := List.pairwise_cons.1 hl.2
    have hno : ∀ d ∈ s.iter, ¬ Overlap d k := fun d hdm ⟨p, hp, hpk⟩ => hd p ⟨k, by simp, hpk⟩ ⟨d, hdm, hp⟩
    obtain ⟨s1, r, e1, -, e3⟩ := (C22_set_updates h.1 k hk (⟨start k, stop k⟩ : Interval I) ⟨start k, le_refl _, valid_iff.1 hk⟩).2.1
    obtain ⟨k', rfl, -, -⟩ := e3 hno
    have hstep : s.step (SetOp.insertMergeTouching (I := I) k) = .ok s1 := by
      simp only [NoditSet.step, e1, bind, Except.bind, pure, Except.pure]
    have hgood : ¬ (SetOp.insertMergeTouching (I := I) k).Bad := fun hc => hc hk
    have asc1 : Ascending (I := I) s1.iter := by
      rcases set_step_refines h.1 (SetOp.insertMergeTouching (I := I) k) with ⟨hb, -⟩ | ⟨-, s2, o, h1, h2, -⟩
      · exact absurd hb hgood
      · rw [hstep] at h1; cases h1; exact h2
    have coal1 := set_coalesced_step h.1 h.2 (op := SetOp.insertMergeTouching (I := I) k) trivial hstep
    have pts1 : ∀ p, p ∈ points s1 ↔ p ∈ points s ∨ Mem p k := fun p => by
      rw [set_step_points h.1 (op := SetOp.insertMergeTouching (I := I) k) trivial hgood hstep]
      simp only [setStep]
      rw [if_neg]
      · rfl
      · rintro ⟨x, hx, hxk⟩; exact hd x ⟨k, by simp, hxk⟩ hx
    obtain ⟨s2, i1, i2, i3⟩ := ih ⟨asc1, coal1⟩ ⟨fun d hd => hl.1 d (by simp [hd]), hlt.2⟩ (by
      rintro p ⟨d, hdm, hp⟩ hc
      rcases (pts1 p).1 hc with hc | hc
      · exact hd p ⟨d, by simp [hdm], hp⟩ hc
      · exact lt_irrefl _ (hlt.1 d hdm p p hc hp))
    refine ⟨s2, by simp only [insertAll, e1, bind, Except.bind, i1], i2, fun p => ?_⟩
    rw [i3, pts1]
    simp only [List.mem_cons, exists_eq_or_imp, or_assoc]

/-- **C141**: toggling a valid interval does not panic, turns exactly its points over, and keeps the intervals the maximal runs of the points. -/
theorem C141_toggle {s : NoditSet K} (h : Tidy (I := I) s) {q : Interval I} (hq : Valid q) :
    ∃ s', toggle s q = .ok s' ∧ Tidy (I := I) s' ∧ ∀ p, p ∈ points s' ↔ (p ∈ points s ↔ ¬ Mem p q) := by
  obtain ⟨gs, g1, g2, g3⟩ := (C22_set_queries h.1 q hq q.start).2.2.2.2.2.1
  obtain ⟨s1, out, c1, -⟩ := (C22_set_updates h.1 (ofInterval q : K) (valid_iff.2 (by
    rw [LawfulInterval.start_of, LawfulInterval.stop_of]; exact valid_iff.1 hq)) q hq).2.2.2.2.2.2
  have hstep : s.step (SetOp.cut q) = .ok s1 := by
    simp only [NoditSet.step, c1, bind, Except.bind, pure, Except.pure]
  have hgood : ¬ (SetOp.cut q : SetOp I K).Bad := fun hc => hc hq
  have asc1 : Ascending (I := I) s1.iter := by
    rcases set_step_refines h.1 (SetOp.cut q) with ⟨hb, -⟩ | ⟨-, s2, o, h1, h2, -⟩
    · exact absurd hb hgood
    · rw [hstep] at h1; cases h1; exact h2
  have coal1 := set_coalesced_step h.1 h.2 (op := SetOp.cut q) trivial hstep
  have pts1 : ∀ p, p ∈ points s1 ↔ p ∈ points s ∧ ¬ Mem p q := fun p => by
    rw [set_step_points h.1 (op := SetOp.cut q) trivial hgood hstep]
    rfl
  have hgaps : ∀ p, (∃ g ∈ gs, Mem p g) ↔ p ∉ points s ∧ Mem p q := by
    intro p
    constructor
    · rintro ⟨g, hg, hp⟩
      obtain ⟨i, rfl, r, hr, hi⟩ := (g3 g).1 hg
      have hp' : Mem p i := by
        have : Mem (p : I) (ofInterval i : K) := hp
        rwa [Mem, LawfulInterval.start_of, LawfulInterval.stop_of] at this
      have := (hi.2 p).1 hp'
      exact ⟨hr.2.1 p this.1, this.2⟩
    · rintro ⟨hp, hpq⟩
      obtain ⟨r, r1, -, r3⟩ := (C22_set_queries h.1 q hq p).2.2.1
      have : ∃ g, r = .error g := by
        cases r with
        | error g => exact ⟨g, rfl⟩
        | ok k => exact absurd ⟨k, ((C22_set_queries h.1 q hq p).2.2.1.elim fun r' hr' => by
            have := hr'.1; rw [r1] at this; cases this; exact ((hr'.2.1 k).1 rfl))⟩ hp
      obtain ⟨g, rfl⟩ := this
      obtain ⟨i, rfl, hmax, hpi⟩ := r3 g rfl
      have hv := valid_iff.1 hmax.1
      have hvq := valid_iff.1 hq
      have hdesc : Describes (⟨max i.start q.start, min i.stop q.stop⟩ : Interval I) (fun p => Mem p i ∧ Mem p q) := by
        refine ⟨⟨p, max_le hpi.1 hpq.1, le_min hpi.2 hpq.2⟩, fun x => ?_⟩
        show (max i.start q.start ≤ x ∧ x ≤ min i.stop q.stop) ↔ (i.start ≤ x ∧ x ≤ i.stop) ∧ (q.start ≤ x ∧ x ≤ q.stop)
        rw [max_le_iff, le_min_iff]
        tauto
      refine ⟨ofInterval ⟨max i.start q.start, min i.stop q.stop⟩, (g3 _).2 ⟨_, rfl, i, hmax, hdesc⟩, ?_⟩
      rw [Mem, LawfulInterval.start_of, LawfulInterval.stop_of]
      exact ⟨max_le hpi.1 hpq.1, le_min hpi.2 hpq.2⟩
  obtain ⟨s2, i1, i2, i3⟩ := insertAll_ok gs ⟨asc1, coal1⟩ g2 (fun p hp hc => ((pts1 p).1 hc).2 ((hgaps p).1 hp).2)
  refine ⟨s2, by simp only [toggle, g1, c1, i1, bind, Except.bind], i2, fun p => ?_⟩
  rw [i3, pts1, hgaps]
  by_cases h1 : p ∈ points s <;> by_cases h2 : Mem p q <;> simp [h1, h2]

theorem toggleAll_ok (l : List (Interval I)) (hl : ∀ q ∈ l, Valid q) {s : NoditSet K} (h : Tidy (I := I) s) :
    ∃ s', toggleAll s l = .ok s' ∧ Tidy (I := I) s' ∧
      open Classical in ∀ p, p ∈ points s' ↔ (p ∈ points s ↔ Even (l.countP fun q => Mem p q)) := by
  classical
  induction l generalizing s with
  | nil => exact ⟨s, rfl, h, by simp⟩
  | cons q l ih =>
    obtain ⟨s1, t1, t2, t3⟩ := C141_toggle h (hl q (by simp))
    obtain ⟨s2, u1, u2, u3⟩ := ih (fun x hx => hl x (by simp [hx])) t2
    refine ⟨s2, by simp only [toggleAll, t1, u1, bind, Except.bind], u2, fun p => ?_⟩
    rw [u3, t3, List.countP_cons]
    by_cases h2 : Mem p q
    · simp only [h2, decide_true, if_true, Nat.even_add_one]; tauto
    · simp only [h2, decide_false, Bool.false_eq_true, if_false, Nat.add_zero]; tauto

theorem tidy_new : Tidy (I := I) (NoditSet.new : NoditSet K) :=
  ⟨by simp [Ascending, NoditSet.new, NoditSet.iter, NoditMap.new, NoditMap.iter],
    by simp [Coalesced, NoditSet.new, NoditMap.new, NoditMap.iter]⟩

/-- **C141**: after any valid intervals were toggled in a new set, its intervals are exactly the maximal runs of the points that lie in an odd number of
them. -/
theorem C141_odd (l : List (Interval I)) (hl : ∀ q ∈ l, Valid q) :
    ∃ s : NoditSet K, toggleAll NoditSet.new l = .ok s ∧ Ascending (I := I) s.iter ∧
      open Classical in ∀ i : Interval I, (∃ k ∈ s.iter, start k = i.start ∧ stop k = i.stop) ↔
        MaximalRun (fun p => Odd (l.countP fun q => Mem p q)) i := by
  classical
  obtain ⟨s, h1, h2, h3⟩ := toggleAll_ok (K := K) l hl tidy_new
  refine ⟨s, h1, h2.1, fun i => ?_⟩
  rw [← Replay.runs_of_coalesced h2.1 h2.2 i]
  have : (fun p => p ∈ points s) = fun p => Odd (l.countP fun q => Mem p q) := funext fun p => propext (by
    rw [h3, ← Nat.not_even_iff_odd]
    have : p ∉ points (NoditSet.new : NoditSet K) := by
      rintro ⟨k, hk, -⟩
      simp [NoditSet.new, NoditSet.iter, NoditMap.new, NoditMap.iter] at hk
    tauto)
  rw [this]

omit [LawfulInterval I K] in
/-- tidy sets with the same points are equal -/
theorem tidy_ext {s s' : NoditSet (Interval I)} (h : Tidy (I := I) s) (h' : Tidy (I := I) s') (he : ∀ p, p ∈ points s ↔ p ∈ points s') : s = s' := by
  have red : ∀ (l : List (Interval I)) (i : Interval I), (∃ k ∈ l, start k = i.start ∧ stop k = i.stop) ↔ i ∈ l := by
    intro l i; constructor
    · rintro ⟨k, hk, hs, ht⟩
      have : k = i := by cases k; cases i; simp only [start, stop] at hs ht; rw [hs, ht]
      rw [this] at hk; exact hk
    · intro he; exact ⟨i, he, rfl, rfl⟩
  have h1 := Replay.runs_of_coalesced h.1 h.2
  have h2 := Replay.runs_of_coalesced h'.1 h'.2
  have heq : (fun p => p ∈ points s) = fun p => p ∈ points s' := funext fun p => propext (he p)
  simp only [red] at h1 h2
  have := NoditMap.ext_entries (m := s.inner) (m' := s'.inner) (wf_iff.2 h.1) (wf_iff.2 h'.1) fun e => by
    have e1 := h1 e.1
    rw [heq, h2 e.1, NoditSet.mem_iter, NoditSet.mem_iter] at e1
    exact e1.symm
  cases s; cases s'; exact congrArg _ this

omit [LawfulInterval I K] in
/-- **C141**: the order does not matter, and toggling twice is not toggling: lists in which the numbers of intervals around each point agree modulo two
give equal sets, from any tidy set. -/
theorem C141_parity {s : NoditSet (Interval I)} (h : Tidy (I := I) s) (l l' : List (Interval I)) (hl : ∀ q ∈ l, Valid q) (hl' : ∀ q ∈ l', Valid q)
    (hp : open Classical in ∀ p : I, l.countP (fun q => Mem p q) % 2 = l'.countP (fun q => Mem p q) % 2) :
    ∃ s', toggleAll s l = .ok s' ∧ toggleAll s l' = .ok s' := by
  classical
  obtain ⟨s1, a1, a2, a3⟩ := toggleAll_ok l hl h
  obtain ⟨s2, b1, b2, b3⟩ := toggleAll_ok l' hl' h
  refine ⟨s1, a1, ?_⟩
  rw [b1, tidy_ext a2 b2 fun p => ?_]
  rw [a3, b3, Nat.even_iff, Nat.even_iff, hp p]

omit [LawfulInterval I K] in
/-- **C141**: in particular toggling the same intervals again, in any order, restores the set. -/
theorem C141_twice {s : NoditSet (Interval I)} (h : Tidy (I := I) s) {l l' : List (Interval I)} (hl : ∀ q ∈ l, Valid q) (hp : l'.Perm l) :
    toggleAll s (l ++ l') = .ok s := by
  classical
  obtain ⟨s', h1, h2⟩ := C141_parity h (l ++ l') [] (by
    intro q hq
    rcases List.mem_append.1 hq with hq | hq
    · exact hl q hq
    · exact hl q (hp.subset hq)) (by simp) (fun p => by
      rw [List.countP_append, hp.countP_eq]; simp; omega)
  cases h2
  exact h1

/-- **C141**: toggling all intervals of another set gives the symmetric difference. -/
theorem C141_symmetric_difference {s : NoditSet K} (h : Tidy (I := I) s) {t : NoditSet (Interval I)} (ht : Ascending (I := I) t.iter) :
    ∃ s', toggleAll s t.iter = .ok s' ∧ Tidy (I := I) s' ∧ ∀ p, p ∈ points s' ↔ ¬ (p ∈ points s ↔ p ∈ points t) := by
  classical
  obtain ⟨s1, a1, a2, a3⟩ := toggleAll_ok t.iter ht.1 h
  refine ⟨s1, a1, a2, fun p => ?_⟩
  rw [a3]
  have hone : t.iter.countP (fun q => decide (Mem p q)) = if p ∈ points t then 1 else 0 := by
    have hle : (t.iter.filter fun q => decide (Mem p q)).length ≤ 1 := by
      have hn : (t.iter.filter fun q => decide (Mem p q)).Nodup := (Replay.nodup ht).filter _
      match hf : t.iter.filter fun q => decide (Mem p q) with
      | [] => simp
      | [_] => simp
      | a :: b :: r =>
        exfalso
        have ha : a ∈ t.iter.filter fun q => decide (Mem p q) := by rw [hf]; simp
        have hb : b ∈ t.iter.filter fun q => decide (Mem p q) := by rw [hf]; simp
        simp only [List.mem_filter, decide_eq_true_eq] at ha hb
        have := Replay.eq_of_mem ht ha.1 hb.1 ha.2 hb.2
        rw [hf, this] at hn
        simp at hn
    rw [List.countP_eq_length_filter]
    split_ifs with hp
    · obtain ⟨k, hk, hm⟩ := hp
      have : 0 < (t.iter.filter fun q => decide (Mem p q)).length :=
        List.length_pos_of_mem (a := k) (by simp [List.mem_filter, hk, hm])
      omega
    · rw [List.length_eq_zero_iff, List.filter_eq_nil_iff]
      intro k hk hm
      exact hp ⟨k, hk, by simpa using hm⟩
  rw [hone]
  split_ifs with hp <;> simp [hp]

end Nodit.Toggle
