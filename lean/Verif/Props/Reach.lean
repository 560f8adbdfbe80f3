import Verif.Props.SetTransfer
import Verif.Props.Timeline
import Verif.Props.GqditProps
import Verif.Props.Canonical
import Verif.Props.CrashProps
import Verif.Props.Algebra
import Verif.Props.Patch
/-!
# C134: exactly which collections can come about

The invariants of C01, C22, C36, C42 and C52 say what holds of every collection a program can build. Here is the converse: whatever satisfies them
is the result of some sequence of calls on a new collection, so there is nothing more to be said about the contents of a collection in general.
-/
set_option linter.unusedSectionVars false
set_option linter.unusedSimpArgs false
namespace Nodit
open Spec PointType

variable {I K V : Type} [PointType I] [IntervalType I K] [LawfulPoint I] [LawfulInterval I K]

/-- **C134** for `NoditMap`: the maps that calls on a new map can lead to are exactly those with valid, ascending, disjoint intervals -/
theorem C134_map [BEq V] (m : NoditMap K V) :
    (∃ ops : List (Op I K V), (NoditMap.new.run ops).1 = m) ↔
      (∀ e ∈ m.iter, Valid (I := I) e.1) ∧ m.iter.Pairwise (fun a b => Before (I := I) a.1 b.1) := by
  constructor
  · rintro ⟨ops, rfl⟩; exact C01_invariant ops
  · intro h
    exact ⟨_, run_of_fromIterStrict (C58_rebuild h (List.Perm.refl _))⟩

/-- **C134** for `NoditSet` -/
theorem C134_set (s : NoditSet K) :
    (∃ ops : List (SetCall I K), (NoditSet.new.runCalls ops).1 = s) ↔
      (∀ k ∈ s.iter, Valid (I := I) k) ∧ s.iter.Pairwise (Before (I := I)) := by
  constructor
  · rintro ⟨ops, rfl⟩
    rw [runCalls_eq]
    exact NoditSet.wf_iff.1 (C01_invariant _)
  · intro h
    have h' : WF (I := I) s.inner.iter := NoditSet.wf_iff.2 h
    have := run_of_fromIterStrict (I := I) (C58_rebuild h' (List.Perm.refl _))
    refine ⟨s.inner.iter.map (fun e => .insertStrict e.1), ?_⟩
    rw [runCalls_eq, List.map_map]
    cases s
    simp only at this ⊢
    congr 1

/-- inserting an interval that neither overlaps nor touches anything adds it as it is -/
theorem set_insertMergeTouching_apart {s : NoditSet K} (h : Ascending (I := I) s.iter) {k : K} (hk : Valid (I := I) k)
    (ho : ∀ j ∈ s.iter, ¬ Overlap (I := I) j k) (ht : ∀ j ∈ s.iter, ¬ Touch (I := I) j k) :
    ∃ s', s.step (.insertMergeTouching k : SetOp I K) = .ok s' ∧ Ascending (I := I) s'.iter ∧ ∀ j, j ∈ s'.iter ↔ j ∈ s.iter ∨ j = k := by
  have ho' : ∀ e ∈ s.inner.iter, ¬ Overlap (I := I) e.1 k := fun e he => ho _ (NoditSet.mem_iter.2 he)
  have ht' : ∀ e ∈ s.inner.iter, ¬ Touch (I := I) e.1 k := fun e he => ht _ (NoditSet.mem_iter.2 he)
  obtain ⟨m', r, h1, h2, -, h4⟩ := C10_insert_merge_touching (NoditSet.wf_iff.2 h) k hk ()
  obtain ⟨k', rfl, -, h5, h6⟩ := h4 ho'
  have hkk : k' = k := h5.2.1 fun e he => absurd he.2 (ht' e he.1)
  subst hkk
  refine ⟨⟨m'⟩, ?_, NoditSet.wf_iff.1 h2, fun j => ?_⟩
  · simp only [NoditSet.step, NoditSet.insertMergeTouching, bind, Except.bind, h1, pure, Except.pure]
  · rw [NoditSet.mem_iter, h6, NoditSet.mem_iter]
    constructor
    · rintro (⟨h, -⟩ | h)
      · exact Or.inl h
      · exact Or.inr (congrArg Prod.fst h)
    · rintro (h | rfl)
      · exact Or.inl ⟨h, ht' _ h⟩
      · exact Or.inr rfl

/-- **C134** for `NoditSet`, with only the calls that merge what touches (`insert_merge_touching`, `insert_merge_touching_or_overlapping`, `cut`,
`remove_overlapping`): exactly the sets whose intervals moreover do not touch -/
theorem C134_set_coalescing (s : NoditSet K) :
    (∃ ops : List (SetOp I K), (∀ op ∈ ops, op.Coalescing) ∧ NoditSet.new.run ops = s) ↔
      (∀ k ∈ s.iter, Valid (I := I) k) ∧ s.iter.Pairwise (Before (I := I)) ∧ ∀ j ∈ s.iter, ∀ k ∈ s.iter, ¬ Touch (I := I) j k := by
  constructor
  · rintro ⟨ops, hops, rfl⟩
    have hA := (C22_set_invariant (K := K) ops).1
    refine ⟨hA.1, hA.2, fun j hj k hk ht => ?_⟩
    have hmax := (C52_set_intervals_are_maximal_runs ops hops ⟨start j, stop j⟩).2 ⟨j, hj, rfl, rfl⟩
    have hjv := valid_iff.1 (hA.1 j hj)
    have hkv := valid_iff.1 (hA.1 k hk)
    have hall : ∀ p, Mem p (⟨min (start j) (start k), max (stop j) (stop k)⟩ : Interval I) → p ∈ points (NoditSet.new.run ops) := by
      rintro p ⟨h1, h2⟩
      by_contra hn
      have nj : ¬ (start j ≤ p ∧ p ≤ stop j) := fun h => hn ⟨j, hj, h⟩
      have nk : ¬ (start k ≤ p ∧ p ≤ stop k) := fun h => hn ⟨k, hk, h⟩
      rw [not_and_or, not_le, not_le] at nj nk
      have h1' : start j ≤ p ∨ start k ≤ p := min_le_iff.1 h1
      have h2' : p ≤ stop j ∨ p ≤ stop k := le_max_iff.1 h2
      obtain ⟨t1, t2⟩ := ht.2 p
      have a1 : stop j < p → p < start k → False := fun x y =>
        t1 ⟨fun z hz => lt_of_le_of_lt hz.2 x, fun z hz => lt_of_lt_of_le y hz.1⟩
      have a2 : stop k < p → p < start j → False := fun x y =>
        t2 ⟨fun z hz => lt_of_le_of_lt hz.2 x, fun z hz => lt_of_lt_of_le y hz.1⟩
      rcases nj with nj | nj <;> rcases nk with nk | nk
      · rcases h1' with h | h <;> order
      · exact a2 nk nj
      · exact a1 nj nk
      · rcases h2' with h | h <;> order
    have hin := hmax.2.2 _ hall ⟨start j, ⟨le_refl _, hjv⟩, ⟨min_le_left _ _, hjv.trans (le_max_left _ _)⟩⟩ (start k)
      ⟨min_le_right _ _, hkv.trans (le_max_right _ _)⟩
    exact ht.1 ⟨start k, hin, ⟨le_refl _, hkv⟩⟩
  · rintro ⟨h1, h2, h3⟩
    have key : ∀ (l : List K) (a : NoditSet K), Ascending (I := I) a.iter → (∀ k ∈ l, Valid (I := I) k) → l.Pairwise (Before (I := I)) →
        (∀ j ∈ a.iter ++ l, ∀ k ∈ l, ¬ Touch (I := I) j k) → (∀ j ∈ a.iter, ∀ k ∈ l, ¬ Overlap (I := I) j k) →
        Ascending (I := I) (a.run (l.map (SetOp.insertMergeTouching (I := I)))).iter ∧
          ∀ k, k ∈ (a.run (l.map (SetOp.insertMergeTouching (I := I)))).iter ↔ k ∈ a.iter ∨ k ∈ l := by
      intro l
      induction l with
      | nil => intro a ha _ _ _ _; exact ⟨ha, fun k => by simp [NoditSet.run]⟩
      | cons x l ih =>
        intro a ha hv hp ht ho
        obtain ⟨a', e1, e2, e3⟩ := set_insertMergeTouching_apart ha (hv x (by simp)) (fun j hj => ho j hj x (by simp))
          (fun j hj => ht j (by simp [hj]) x (by simp))
        obtain ⟨p1, p2⟩ := List.pairwise_cons.1 hp
        obtain ⟨g1, g2⟩ := ih a' e2 (fun k hk => hv k (by simp [hk])) p2
          (fun j hj k hk => ht j (by
            rw [List.mem_append] at hj ⊢
            rw [e3] at hj
            simp only [List.mem_cons]; tauto) k (by simp [hk]))
          (fun j hj k hk => by
            rcases (e3 j).1 hj with hj | rfl
            · exact ho j hj k (by simp [hk])
            · rintro ⟨p, hp1, hp2⟩
              exact lt_irrefl _ (p1 k hk p p hp1 hp2))
        simp only [List.map_cons, NoditSet.run, e1]
        refine ⟨g1, fun k => ?_⟩
        rw [g2, e3, List.mem_cons]; tauto
    obtain ⟨g1, g2⟩ := key s.iter NoditSet.new (by simp [Ascending, NoditSet.new, NoditSet.iter, NoditMap.new, NoditMap.iter]) h1 h2
      (fun j hj k hk => h3 j (by simpa [NoditSet.new, NoditSet.iter, NoditMap.new, NoditMap.iter] using hj) k hk)
      (by simp [NoditSet.new, NoditSet.iter, NoditMap.new, NoditMap.iter])
    refine ⟨s.iter.map .insertMergeTouching, ?_, ?_⟩
    · intro op hop; obtain ⟨k, -, rfl⟩ := List.mem_map.1 hop; trivial
    · have e : (NoditSet.new.run (s.iter.map (SetOp.insertMergeTouching (I := I)))).inner = s.inner :=
        NoditMap.ext_entries (I := I) (NoditSet.wf_iff.2 g1) (NoditSet.wf_iff.2 ⟨h1, h2⟩) (fun e => by
          have := g2 e.1
          rw [NoditSet.mem_iter, NoditSet.mem_iter (s := s)] at this
          simpa [NoditSet.new, NoditSet.iter, NoditMap.new, NoditMap.iter] using this)
      generalize NoditSet.new.run (s.iter.map (SetOp.insertMergeTouching (I := I))) = t at e
      cases t; cases s; simp only at e; rw [e]

/-- **C134** for `Gqdit`: exactly the maps from intervals to sets of identifiers that give every point of the domain one set, that hold no two
touching intervals with the same set, and whose intervals the map built itself -/
theorem C134_gqdit {D : Type} [DecidableEq D] (g : Gqdit K D) :
    (∃ h : GqHist I K D, Gqdit.eval h = .ok g) ↔
      (∀ e ∈ g.inner.iter, Valid (I := I) e.1) ∧ g.inner.iter.Pairwise (fun a b => Before (I := I) a.1 b.1) ∧
      (∀ p : I, ∃ e ∈ g.inner.iter, Mem p e.1) ∧
      (∀ e ∈ g.inner.iter, ∀ d ∈ g.inner.iter, Touch (I := I) e.1 d.1 → e.2 ≠ d.2) ∧
      (∀ e ∈ g.inner.iter, ∃ i : Interval I, e.1 = ofInterval i) := by
  constructor
  · rintro ⟨h, hg⟩
    obtain ⟨h1, h2, h3, h4⟩ := rep_of_eval hg
    refine ⟨h1.1, h1.2, fun p => ?_, h2, h3⟩
    obtain ⟨e, he, hp, -⟩ := (h4 p _).2 rfl
    exact ⟨e, he, hp⟩
  · classical
    rintro ⟨h1, h2, h3, h4, h5⟩
    have hw : WF (I := I) g.inner.iter := ⟨h1, h2⟩
    have key : ∀ (l : List (K × Finset D)) (h : GqHist I K D), (∀ e ∈ l, Valid (I := I) e.1) → ¬ h.Bad →
        ¬ (l.foldl (fun h e => GqHist.insert h e.2 e.1) h).Bad ∧
        ∀ p x, x ∈ (l.foldl (fun h e => GqHist.insert h e.2 e.1) h).idsAt p ↔ x ∈ h.idsAt p ∨ ∃ e ∈ l, Mem p e.1 ∧ x ∈ e.2 := by
      intro l
      induction l with
      | nil => intro h _ hb; exact ⟨hb, fun p x => by simp⟩
      | cons e l ih =>
        intro h hv hb
        obtain ⟨g1, g2⟩ := ih (GqHist.insert h e.2 e.1) (fun d hd => hv d (by simp [hd])) (by
          rintro (hc | hc)
          · exact hb hc
          · exact hc (hv e (by simp)))
        refine ⟨g1, fun p x => ?_⟩
        rw [List.foldl_cons, g2, GqHist.idsAt]
        split_ifs with hp
        · simp [hp, or_assoc]
        · simp [hp]
    obtain ⟨g1, g2⟩ := key g.inner.iter .new h1 id
    rcases eval_rep (g.inner.iter.foldl (fun h e => GqHist.insert h e.2 e.1) (.new : GqHist I K D)) with ⟨hb, -⟩ | ⟨-, g', e1, e2⟩
    · exact absurd hb g1
    · refine ⟨_, e1.trans (congrArg _ (Gqdit.Rep.eq e2 ⟨hw, h4, h5, fun p w => ?_⟩))⟩
      obtain ⟨e, he, hp⟩ := h3 p
      have hval : (g.inner.iter.foldl (fun h e => GqHist.insert h e.2 e.1) (.new : GqHist I K D)).idsAt p = e.2 := by
        ext x
        rw [g2]
        constructor
        · rintro (hx | ⟨d, hd, hpd, hx⟩)
          · exact absurd hx (by simp [GqHist.idsAt])
          · rwa [Patch.wf_unique hw hd he ⟨p, hpd, hp⟩] at hx
        · intro hx; exact Or.inr ⟨e, he, hp, hx⟩
      rw [hval]
      constructor
      · rintro ⟨d, hd, hpd, rfl⟩; rw [Patch.wf_unique hw hd he ⟨p, hpd, hp⟩]
      · rintro rfl; exact ⟨e, he, hp, rfl⟩

namespace ZosditMap

/-- client code, models no lines of `/repo`: inserting and removing one value, `n` times -/
def churn (v : V) : Nat → List (ZOp I (Interval I) V)
  | 0 => []
  | n + 1 => .insertStrictBack ⟨MIN, MIN⟩ v 0 :: .removeLastValueAtPoint MIN :: churn v n

theorem churn_run {v : V} {l : List ((Interval I × V) × Nat)} (n : Nat) {r : Nat} {s' : ZState (Interval I) V} {os : List (Res (ZOut (Interval I) V))}
    (h : ZSpecRun ⟨[], r, false⟩ (churn v n ++ Timeline.appends l) s' os) :
    ∃ os', ZSpecRun ⟨[], r + n, false⟩ (Timeline.appends l) s' os' := by
  induction n generalizing r os with
  | zero => exact ⟨os, h⟩
  | succ n ih =>
    have hm : Mem (MIN : I) (⟨MIN, MIN⟩ : Interval I) := ⟨le_refl _, le_refl _⟩
    simp only [churn, List.cons_append] at h
    cases h with
    | cons hs h =>
      rcases hs with ⟨hb, -⟩ | ⟨-, out, -, hs⟩
      · exact absurd ⟨MIN, hm⟩ hb
      obtain ⟨-, l', ⟨l1, k', l2, a1, a2, a3, -, a4, -⟩, rfl⟩ := hs.2 (by simp)
      simp only [List.nil_eq, List.append_eq_nil_iff] at a1
      obtain ⟨rfl, rfl⟩ := a1
      obtain rfl := a4 (by simp)
      subst a2
      cases h with
      | cons hs h =>
        rcases hs with ⟨hb, -⟩ | ⟨-, out, -, hs⟩
        · exact hb.elim
        obtain ⟨l1, k, w, l2, b1, -, -, rfl, -⟩ := hs.2 (by
          rintro (hn | ⟨⟨e, he, x, hx, hlt⟩, -⟩)
          · exact hn (⟨MIN, MIN⟩, v) (by simp) hm
          · simp only [List.nil_append, List.mem_singleton] at he
            subst he
            exact absurd hx.2 (not_le.2 hlt))
        have : l1 = [] ∧ l2 = [] := by
          have := congrArg List.length b1
          simp at this
          constructor <;> rw [← List.length_eq_zero_iff] <;> omega
        obtain ⟨rfl, rfl⟩ := this
        obtain ⟨os', g⟩ := ih h
        exact ⟨os', by rwa [show r + (n + 1) = r + 1 + n by omega]⟩

end ZosditMap

/-- **C134** for `ZosditMap`: the sequences of entries and the lengths it can report are exactly the sequences of entries each of which lies at or
before the next, with any length that is not smaller than theirs (values removed with `remove_last_value_at_point` stay counted, C42) -/
theorem C134_zosdit [Nonempty V] (l : List (Interval I × V)) (n : Nat) :
    (∃ ops : List (ZOp I (Interval I) V), (ZosditMap.new.run ops).1.iter = l ∧ (ZosditMap.new.run ops).1.length = n) ↔
      (∀ e ∈ l, Valid e.1) ∧ l.Pairwise (fun a b => AtOrBefore a.1 b.1) ∧ l.length ≤ n := by
  constructor
  · rintro ⟨ops, rfl, rfl⟩
    have h := C36_zero_overlap_sequence ops
    exact ⟨h.1, h.2, (ZosditMap.good_after ops).len⟩
  · rintro ⟨h1, h2, h3⟩
    obtain ⟨v⟩ := ‹Nonempty V›
    let l' : List ((Interval I × V) × Nat) := l.map fun e => (e, 0)
    have hl' : l'.map Prod.fst = l := by simp [l', Function.comp_def]
    obtain ⟨s, g1, g2, g3, -⟩ := C62_refines (ZosditMap.churn v (n - l.length) ++ Timeline.appends l')
    obtain ⟨os, g4⟩ := ZosditMap.churn_run _ g1
    obtain ⟨-, e2, e3⟩ := Timeline.append_run l' (s := ⟨[], 0 + (n - l.length), false⟩) rfl (by simpa [hl'] using h1) (by
      simp only [List.nil_append, hl']
      refine h2.imp_of_mem fun {a b} ha hb h => h _ _ ⟨valid_iff.1 (h1 a ha), le_refl _⟩ ⟨le_refl _, valid_iff.1 (h1 b hb)⟩) g4
    simp only [List.nil_append, hl'] at e2
    have hse : s.entries = l := by
      have : ∀ (a b : List (Interval I × V)), (∀ e ∈ b, Valid e.1) → SameEntries a b → a = b := by
        intro a b hv h
        induction h with
        | nil => rfl
        | cons h _ ih =>
          rename_i x y _ _ _
          rw [ih fun e he => hv e (by simp [he])]
          have := interval_eq_of_mem_iff (hv y (by simp)) fun p => (h.1 p).symm
          cases x; cases y; simp only at this h; rw [this, h.2]
      exact this _ _ h1 e2
    refine ⟨_, g2.trans hse, g3.trans ?_⟩
    rw [hse, e3]; simp only; omega

end Nodit
