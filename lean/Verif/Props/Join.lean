import Verif.Props.RangeUpdate
import Verif.Props.Intervals
import Verif.Props.Rollback
/-!
# C127: joining two maps

The pairs of values that two maps hold at the same point, computed by `overlapping` and `intersection`.
-/
set_option linter.unusedSectionVars false
namespace Nodit.Join
open Spec PointType NoditMap

variable {I K V W : Type} [PointType I] [IntervalType I K] [LawfulPoint I] [LawfulInterval I K]

/-- client code: `b.overlapping(k).filter_map(|(d, w)| k.intersection(d).map(|i| (i, (v, w))))`; models no lines of `/repo` -/
def pieces (e : K × V) (ds : List (K × W)) : List (K × V × W) :=
  ds.filterMap fun d => (InclusiveInterval.intersection e.1 d.1).map fun i => (i, e.2, d.2)

/-- client code, models no lines of `/repo`: for every entry of the first map, insert its pieces with `insert_strict`. -/
def joinLoop (b : NoditMap K W) (c : NoditMap K (V × W)) : List (K × V) → Res (NoditMap K (V × W))
  | [] => pure c
  | e :: l => do
    let ds ← b.overlapping e.1
    let c ← RangeUpdate.insertAll c (pieces e ds)
    joinLoop b c l

/-- client code, models no lines of `/repo` -/
def join (a : NoditMap K V) (b : NoditMap K W) : Res (NoditMap K (V × W)) := joinLoop b NoditMap.new a.iter

/-- `x` is the common part of `e` and `d` with both values -/
def Piece (e : K × V) (d : K × W) (x : K × V × W) : Prop :=
  InclusiveInterval.intersection e.1 d.1 = some x.1 ∧ x.2 = (e.2, d.2)

theorem Piece.mem {e : K × V} {d : K × W} {x : K × V × W} (h : Piece e d x) : Valid (I := I) x.1 ∧ ∀ p : I, Mem p x.1 ↔ Mem p e.1 ∧ Mem p d.1 :=
  (C24_intersection_exact e.1 d.1).1 _ h.1

theorem mem_pieces {e : K × V} {ds : List (K × W)} {x : K × V × W} : x ∈ pieces e ds ↔ ∃ d ∈ ds, Piece e d x := by
  obtain ⟨k, v⟩ := x
  simp only [pieces, List.mem_filterMap, Option.map_eq_some_iff, Prod.mk.injEq, Piece]
  constructor
  · rintro ⟨d, hd, i, hi, rfl, rfl⟩
    exact ⟨d, hd, hi, rfl⟩
  · rintro ⟨d, hd, hi, rfl⟩
    exact ⟨d, hd, k, hi, rfl, rfl⟩

theorem pieces_wf (e : K × V) {ds : List (K × W)} (h : WF (I := I) ds) : WF (I := I) (pieces e ds) := by
  refine ⟨fun x hx => ?_, List.pairwise_filterMap.2 (h.2.imp ?_)⟩
  · obtain ⟨d, -, hp⟩ := mem_pieces.1 hx
    exact hp.mem.1
  · intro d d' hb x hx y hy
    obtain ⟨i, hi, rfl⟩ := Option.map_eq_some_iff.1 hx
    obtain ⟨j, hj, rfl⟩ := Option.map_eq_some_iff.1 hy
    intro p q hp hq
    exact hb p q (((C24_intersection_exact e.1 d.1).1 _ hi).2 p |>.1 hp).2 (((C24_intersection_exact e.1 d'.1).1 _ hj).2 q |>.1 hq).2

theorem joinLoop_spec {b : NoditMap K W} (hb : WF b.iter) {l : List (K × V)} (hl : WF (I := I) l) {c : NoditMap K (V × W)} (hc : WF c.iter)
    (hd : ∀ x ∈ c.iter, ∀ e ∈ l, ¬ Overlap x.1 e.1) :
    ∃ c', joinLoop b c l = .ok c' ∧ WF c'.iter ∧ ∀ x, x ∈ c'.iter ↔ x ∈ c.iter ∨ ∃ e ∈ l, ∃ d ∈ b.iter, Piece e d x := by
  induction l generalizing c with
  | nil => exact ⟨c, rfl, hc, by simp⟩
  | cons e l ih =>
    have hp := List.pairwise_cons.1 hl.2
    obtain ⟨⟨ds, d1, d2, d3⟩, -⟩ := C05_overlapping_exact hb e.1 (hl.1 e (by simp))
    have hmem : ∀ x, x ∈ pieces e ds ↔ ∃ d ∈ b.iter, Piece e d x := fun x => by
      rw [mem_pieces]
      constructor
      · rintro ⟨d, h1, h2⟩; exact ⟨d, ((d3 d).1 h1).1, h2⟩
      · rintro ⟨d, h1, h2⟩
        obtain ⟨⟨p, hpx⟩, hm⟩ := h2.mem
        exact ⟨d, (d3 d).2 ⟨h1, p, ((hm p).1 hpx).2, ((hm p).1 hpx).1⟩, h2⟩
    obtain ⟨c1, e1, e2, e3⟩ := RangeUpdate.insertAll_spec hc (pieces_wf e d2) (by
      rintro x hx y hy ⟨p, p1, p2⟩
      obtain ⟨d, -, hy⟩ := mem_pieces.1 hy
      exact hd x hx e (by simp) ⟨p, p1, ((hy.mem.2 p).1 p2).1⟩)
    obtain ⟨c', f1, f2, f3⟩ := ih ⟨fun x hx => hl.1 x (by simp [hx]), hp.2⟩ e2 (by
      rintro x hx e' he' ⟨p, p1, p2⟩
      rcases (e3 x).1 hx with hx | hx
      · exact hd x hx e' (by simp [he']) ⟨p, p1, p2⟩
      · obtain ⟨d, -, hy⟩ := mem_pieces.1 hx
        exact lt_irrefl p (hp.1 e' he' p p ((hy.mem.2 p).1 p1).1 p2))
    refine ⟨c', by simp only [joinLoop, d1, e1, bind, Except.bind]; exact f1, f2, fun x => ?_⟩
    rw [f3, e3, hmem]
    simp only [List.mem_cons, exists_eq_or_imp, or_assoc]

/-- **C127**: on all pairs of maps the join does not panic and no insert is refused; its entries are exactly the common parts of an entry of the
first and an entry of the second map, with both values; at a point it holds a pair of values exactly if the first map holds the one and the
second the other; and it has at most as many entries as both maps together. -/
theorem C127_join {a : NoditMap K V} {b : NoditMap K W} (ha : WF a.iter) (hb : WF b.iter) :
    ∃ c, join (I := I) a b = .ok c ∧ WF c.iter ∧
      (∀ x : K × V × W, x ∈ c.iter ↔ ∃ e ∈ a.iter, ∃ d ∈ b.iter, InclusiveInterval.intersection e.1 d.1 = some x.1 ∧ x.2 = (e.2, d.2)) ∧
      (∀ (p : I) v w, c.getAtPoint p = .ok (some (v, w)) ↔ a.getAtPoint p = .ok (some v) ∧ b.getAtPoint p = .ok (some w)) ∧
      c.len ≤ a.len + b.len := by
  obtain ⟨c, h1, h2, h3⟩ := joinLoop_spec hb ha (c := NoditMap.new) wf_new (by simp [NoditMap.new, NoditMap.iter])
  have h3 : ∀ x, x ∈ c.iter ↔ ∃ e ∈ a.iter, ∃ d ∈ b.iter, Piece e d x := fun x => by
    rw [h3]; simp [NoditMap.new, NoditMap.iter]
  have hget : ∀ {U : Type} {m : NoditMap K U}, WF m.iter → ∀ (p : I) u, m.getAtPoint p = .ok (some u) ↔ ∃ e ∈ m.iter, Mem p e.1 ∧ e.2 = u := by
    intro U m hm p u
    obtain ⟨r, r1, r2⟩ := NoditMap.spec_getAtPoint hm p
    rw [r1, Except.ok.injEq]
    exact r2 u
  refine ⟨c, h1, h2, h3, fun p v w => ?_, ?_⟩
  · rw [hget h2, hget ha, hget hb]
    constructor
    · rintro ⟨x, hx, hp, he⟩
      obtain ⟨e, he', d, hd, hpc⟩ := (h3 x).1 hx
      have hm := (hpc.mem.2 p).1 hp
      rw [hpc.2] at he
      cases he
      exact ⟨⟨e, he', hm.1, rfl⟩, d, hd, hm.2, rfl⟩
    · rintro ⟨⟨e, he, hpe, rfl⟩, d, hd, hpd, rfl⟩
      cases hi : InclusiveInterval.intersection e.1 d.1 with
      | none => exact absurd ⟨p, hpe, hpd⟩ ((C24_intersection_exact e.1 d.1).2.1 hi)
      | some k =>
        have hpc : Piece e d (k, e.2, d.2) := ⟨hi, rfl⟩
        exact ⟨(k, e.2, d.2), (h3 _).2 ⟨e, he, d, hd, hpc⟩, (hpc.mem.2 p).2 ⟨hpe, hpd⟩, rfl⟩
  · have hnd : (c.iter.map fun x => (start x.1 : I)).Nodup := by
      refine List.pairwise_map.2 ((List.Pairwise.and_mem.1 h2.2).imp ?_)
      rintro x y ⟨hx, hy, hb⟩ heq
      have h1 := valid_iff.1 (h2.1 x hx)
      have h2 := valid_iff.1 (h2.1 y hy)
      exact absurd (hb _ _ ⟨le_refl _, h1⟩ ⟨le_refl _, h2⟩) (by rw [heq]; exact lt_irrefl _)
    have hsub : (c.iter.map fun x => (start x.1 : I)) ⊆ (a.iter.map fun x => (start x.1 : I)) ++ (b.iter.map fun x => (start x.1 : I)) := by
      intro s hs
      obtain ⟨x, hx, rfl⟩ := List.mem_map.1 hs
      obtain ⟨e, he, d, hd, hpc⟩ := (h3 x).1 hx
      have hi := hpc.1
      simp only [InclusiveInterval.intersection] at hi
      split_ifs at hi
      have hs : (start x.1 : I) = max (start e.1) (start d.1) := by
        rw [← Option.some.inj hi]; exact LawfulInterval.start_of _
      rw [hs, List.mem_append]
      rcases max_choice (start e.1 : I) (start d.1) with hm | hm
      · rw [hm]; exact Or.inl (List.mem_map.2 ⟨e, he, rfl⟩)
      · rw [hm]; exact Or.inr (List.mem_map.2 ⟨d, hd, rfl⟩)
    have := (hnd.subperm hsub).length_le
    simpa [NoditMap.len, NoditMap.iter] using this

end Nodit.Join
