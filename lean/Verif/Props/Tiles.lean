import Verif.Props.Txn
import Verif.Props.Intervals
import Mathlib.Data.List.Sort
/-!
# C147: reading a range without holes

A client reads a range of a `NoditMap` as a file with holes is read: as pieces that follow each other, each with a value or a hole.
-/
set_option linter.unusedSectionVars false
namespace Nodit.Tiles
open Spec PointType InclusiveInterval NoditMap

variable {I K V : Type} [PointType I] [IntervalType I K] [LawfulPoint I] [LawfulInterval I K]

/-- `let mut ps: Vec<_> = m.overlapping(q).filter_map(|(k, v)| Some((k.intersection(&q)?, Some(v)))).chain(m.gaps_trimmed(q).map(|g| (g, None))).collect();
ps.sort_by_key(|p| p.0.start()); ps`. A client, models no lines of `/repo`. -/
def pieces (m : NoditMap K V) (q : Interval I) : Res (List (K × Option V)) := do
  let es ← m.overlapping q
  let gs ← m.gapsTrimmed q
  let ps := (es.filterMap fun e => (intersection (I := I) e.1 q).map fun k => (k, some e.2)) ++ gs.map fun g => (g, none)
  pure (ps.insertionSort fun a b => start (I := I) a.1 ≤ start b.1)

/-- intervals that share no points, in the order of their starts, are ascending -/
theorem wf_of_sorted {W : Type} {l : List (K × W)} (hv : ∀ e ∈ l, Valid (I := I) e.1) (hd : l.Pairwise fun a b => ¬ Overlap (I := I) a.1 b.1) :
    WF (I := I) (l.insertionSort fun a b => start (I := I) a.1 ≤ start b.1) := by
  have hperm := List.perm_insertionSort (fun a b : K × W => start (I := I) a.1 ≤ start b.1) l
  have hs : (l.insertionSort fun a b => start (I := I) a.1 ≤ start b.1).Pairwise fun a b => start (I := I) a.1 ≤ start b.1 :=
    haveI : Std.Total (fun a b : K × W => start (I := I) a.1 ≤ start b.1) := ⟨fun a b => le_total _ _⟩
    haveI : IsTrans (K × W) (fun a b => start (I := I) a.1 ≤ start b.1) := ⟨fun a b c => le_trans⟩
    List.pairwise_insertionSort _ l
  have hd' := (hperm.pairwise_iff (R := fun a b : K × W => ¬ Overlap (I := I) a.1 b.1) (fun h ⟨p, h1, h2⟩ => h ⟨p, h2, h1⟩)).2 hd
  refine ⟨fun e he => hv e (hperm.mem_iff.1 he), (hs.and hd').imp_of_mem fun {a b} ha hb ⟨h1, h2⟩ x y hx hy => ?_⟩
  have hbv := valid_iff.1 (hv b (hperm.mem_iff.1 hb))
  by_contra hc
  have hyx := not_lt.1 hc
  exact h2 ⟨start b.1, ⟨h1, le_trans (le_trans hy.1 hyx) hx.2⟩, le_refl _, hbv⟩

/-- **C147**: for every map and every valid range the client does not panic; the pieces are ascending disjoint intervals which together have exactly the
points of the range, and at each point of a piece the map has the piece's value, or nothing if the piece is a hole. -/
theorem C147_pieces {m : NoditMap K V} (h : WF (I := I) m.iter) {q : Interval I} (hq : Valid q) :
    ∃ ps, pieces m q = .ok ps ∧ WF (I := I) ps ∧ (∀ p, (∃ e ∈ ps, Mem p e.1) ↔ Mem p q) ∧ ∀ e ∈ ps, ∀ p, Mem p e.1 → m.getAtPoint p = .ok e.2 := by
  obtain ⟨es, a1, a2, a3⟩ := (C05_overlapping_exact h q hq).1
  obtain ⟨gs, g1, g2, -, g4⟩ := C15_gaps_trimmed h q hq
  have hmem : ∀ x : K × Option V, x ∈ (es.filterMap fun e => (intersection (I := I) e.1 q).map fun k => (k, some e.2)) ++ gs.map (fun g => (g, none)) ↔
      (∃ e ∈ es, intersection (I := I) e.1 q = some x.1 ∧ x.2 = some e.2) ∨ (x.1 ∈ gs ∧ x.2 = none) := by
    rintro ⟨k, o⟩
    simp only [List.mem_append, List.mem_filterMap, Option.map_eq_some_iff, Prod.mk.injEq, List.mem_map]
    refine or_congr ⟨?_, ?_⟩ ⟨?_, ?_⟩
    · rintro ⟨e, he, k', hk, rfl, rfl⟩; exact ⟨e, he, hk, rfl⟩
    · rintro ⟨e, he, hk, rfl⟩; exact ⟨e, he, k, hk, rfl, rfl⟩
    · rintro ⟨g, hg, rfl, rfl⟩; exact ⟨hg, rfl⟩
    · rintro ⟨hg, rfl⟩; exact ⟨k, hg, rfl, rfl⟩
  have hclip : ∀ (e : K × V) (k : K), intersection (I := I) e.1 q = some k → Valid (I := I) k ∧ ∀ p, Mem p k ↔ Mem p e.1 ∧ Mem p q :=
    fun e k hk => (C24_intersection_exact (I := I) e.1 q).1 k hk
  have hvalid : ∀ x ∈ (es.filterMap fun e => (intersection (I := I) e.1 q).map fun k => (k, some e.2)) ++ gs.map (fun g => (g, (none : Option V))),
      Valid (I := I) x.1 := by
    intro x hx
    rcases (hmem x).1 hx with ⟨e, -, hk, -⟩ | ⟨hg, -⟩
    · exact (hclip e _ hk).1
    · exact g2.1 _ hg
  refine ⟨_, by simp only [pieces, a1, g1, bind, Except.bind, pure, Except.pure], wf_of_sorted hvalid ?_, fun p => ?_, fun x hx p hp => ?_⟩
  · rw [List.pairwise_append]
    refine ⟨?_, ?_, ?_⟩
    · rw [List.pairwise_filterMap]
      refine a2.2.imp fun {a b} hab => ?_
      rintro x hx y hy ⟨p, hp, hp'⟩
      simp only [Option.map_eq_some_iff] at hx hy
      obtain ⟨k, hk, rfl⟩ := hx
      obtain ⟨k', hk', rfl⟩ := hy
      exact lt_irrefl p (hab p p (((hclip a k hk).2 p).1 hp).1 (((hclip b k' hk').2 p).1 hp').1)
    · rw [List.pairwise_map]
      exact g2.2.imp fun hab ⟨p, hp, hp'⟩ => lt_irrefl p (hab p p hp hp')
    · rintro x hx y hy ⟨p, hp, hp'⟩
      obtain ⟨g, hg, rfl⟩ := List.mem_map.1 hy
      simp only [List.mem_filterMap, Option.map_eq_some_iff] at hx
      obtain ⟨e, he, k, hk, rfl⟩ := hx
      exact ((g4 p).1 ⟨g, hg, hp'⟩).2 ⟨e, ((a3 e).1 he).1, (((hclip e k hk).2 p).1 hp).1⟩
  · simp only [List.mem_insertionSort, hmem]
    constructor
    · rintro ⟨x, ⟨e, -, hk, -⟩ | ⟨hg, -⟩, hp⟩
      · exact (((hclip e _ hk).2 p).1 hp).2
      · exact ((g4 p).1 ⟨_, hg, hp⟩).1
    · intro hp
      by_cases hc : ∃ e ∈ m.iter, Mem p e.1
      · obtain ⟨e, he, hpe⟩ := hc
        cases hi : intersection (I := I) e.1 q with
        | none => exact absurd ⟨p, hpe, hp⟩ ((C24_intersection_exact (I := I) e.1 q).2.1 hi)
        | some k => exact ⟨(k, some e.2), Or.inl ⟨e, (a3 e).2 ⟨he, p, hpe, hp⟩, hi, rfl⟩, ((hclip e k hi).2 p).2 ⟨hpe, hp⟩⟩
      · obtain ⟨g, hg, hpg⟩ := (g4 p).2 ⟨hp, hc⟩
        exact ⟨(g, none), Or.inr ⟨hg, rfl⟩, hpg⟩
  · rw [List.mem_insertionSort, hmem] at hx
    rcases hx with ⟨e, he, hk, ho⟩ | ⟨hg, ho⟩
    · rw [ho]; exact getAtPoint_eq h ((a3 e).1 he).1 (((hclip e _ hk).2 p).1 hp).1
    · rw [ho]; exact getAtPoint_none h fun e he hpe => ((g4 p).1 ⟨_, hg, hp⟩).2 ⟨e, he, hpe⟩

end Nodit.Tiles
