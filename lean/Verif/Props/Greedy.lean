import Verif.Props.MapProps
import Verif.Props.SetProps
/-!
# C142: choosing as many intervals as possible

A client wants to accept as many of the requested intervals as possible, no two of which overlap. It offers them to `insert_strict` in the order of
their ends.
-/
set_option linter.unusedSectionVars false
namespace Nodit.Greedy
open Spec PointType NoditMap

variable {I K V : Type} [PointType I] [IntervalType I K] [LawfulPoint I] [LawfulInterval I K]

/-- `for (k, v) in requests { let _ = m.insert_strict(k, v); }`. A client, models no lines of `/repo`. -/
def select (m : NoditMap K V) : List (K × V) → Res (NoditMap K V)
  | [] => pure m
  | e :: l => do
    let (m, _) ← m.insertStrict (I := I) e.1 e.2
    select m l

theorem select_ok (l : List (K × V)) (hl : ∀ e ∈ l, Valid (I := I) e.1) (hs : l.Pairwise fun a b => stop (I := I) a.1 ≤ stop b.1)
    {m : NoditMap K V} (h : WF (I := I) m.iter) (hm : ∀ a ∈ m.iter, ∀ e ∈ l, stop (I := I) a.1 ≤ stop e.1) :
    ∃ m', select (I := I) m l = .ok m' ∧ WF (I := I) m'.iter ∧ (∀ e ∈ m.iter, e ∈ m'.iter) ∧ (∀ e ∈ m'.iter, e ∈ m.iter ∨ e ∈ l) ∧
      ∀ e ∈ l, ∃ a ∈ m'.iter, Mem (stop a.1 : I) e.1 := by
  induction l generalizing m with
  | nil => exact ⟨m, rfl, h, fun _ he => he, fun _ he => Or.inl he, by simp⟩
  | cons x l ih =>
    have hx := hl x (by simp)
    have hxv := valid_iff.1 hx
    have hsx := List.pairwise_cons.1 hs
    obtain ⟨m1, r, e1, e2, e3, e4⟩ := C06_insert_strict h x.1 hx x.2
    by_cases ho : ∃ e ∈ m.iter, Overlap e.1 x.1
    · obtain ⟨rfl, rfl⟩ := e3 ho
      obtain ⟨m', s1, s2, s3, s4, s5⟩ := ih (fun e he => hl e (by simp [he])) hsx.2 h (fun a ha e he => hm a ha e (by simp [he]))
      refine ⟨m', by simp only [select, e1, bind, Except.bind, s1], s2, s3, fun e he => (s4 e he).imp_right (by simp +contextual), fun e he => ?_⟩
      rcases List.mem_cons.1 he with rfl | he
      · obtain ⟨a, ha, p, hp, hpx⟩ := ho
        exact ⟨a, s3 a ha, le_trans hpx.1 hp.2, hm a ha e (by simp)⟩
      · exact s5 e he
    · obtain ⟨rfl, h5, -⟩ := e4 fun e he hc => ho ⟨e, he, hc⟩
      obtain ⟨m', s1, s2, s3, s4, s5⟩ := ih (fun e he => hl e (by simp [he])) hsx.2 e2 (fun a ha e he => by
        rcases (h5 a).1 ha with ha | rfl
        · exact hm a ha e (by simp [he])
        · exact hsx.1 e he)
      refine ⟨m', by simp only [select, e1, bind, Except.bind, s1], s2, fun e he => s3 e ((h5 e).2 (Or.inl he)), fun e he => ?_, fun e he => ?_⟩
      · rcases s4 e he with he | he
        · rcases (h5 e).1 he with he | rfl
          · exact Or.inl he
          · exact Or.inr (by simp)
        · exact Or.inr (by simp [he])
      · rcases List.mem_cons.1 he with rfl | he
        · exact ⟨e, s3 _ ((h5 e).2 (Or.inr rfl)), hxv, le_refl _⟩
        · exact s5 e he

omit [LawfulPoint I] [LawfulInterval I K] in
/-- disjoint intervals need as many points to meet them all -/
theorem at_least (l : List (K × V)) (hd : l.Pairwise fun a b => ¬ Overlap (I := I) a.1 b.1) (P : List I) (hp : ∀ e ∈ l, ∃ p ∈ P, Mem p e.1) :
    l.length ≤ P.length := by
  classical
  induction l generalizing P with
  | nil => exact Nat.zero_le _
  | cons x l ih =>
    obtain ⟨p, h1, h2⟩ := hp x (by simp)
    have hx := List.pairwise_cons.1 hd
    have := ih hx.2 (P.erase p) (fun e he => by
      obtain ⟨q, q1, q2⟩ := hp e (by simp [he])
      refine ⟨q, (List.mem_erase_of_ne ?_).2 q1, q2⟩
      rintro rfl
      exact hx.1 e he ⟨q, h2, q2⟩)
    rw [List.length_erase_of_mem h1] at this
    have := List.length_pos_of_mem h1
    rw [List.length_cons]
    omega

theorem wf_new : WF (I := I) (NoditMap.new : NoditMap K V).iter := by simp [WF, NoditMap.new, NoditMap.iter]

theorem disjoint {l : List (K × V)} (h : WF (I := I) l) : l.Pairwise fun a b => ¬ Overlap (I := I) a.1 b.1 :=
  h.2.imp fun hab ⟨p, hp, hp'⟩ => lt_irrefl p (hab p p hp hp')

/-- **C142**: offered in the order of their ends, some of the requests are accepted, nothing else, and no selection of requests without overlaps is
larger. -/
theorem C142_most (l : List (K × V)) (hl : ∀ e ∈ l, Valid (I := I) e.1) (hs : l.Pairwise fun a b => stop (I := I) a.1 ≤ stop b.1) :
    ∃ m, select (I := I) NoditMap.new l = .ok m ∧ WF (I := I) m.iter ∧ (∀ e ∈ m.iter, e ∈ l) ∧
      ∀ l' : List (K × V), (∀ e ∈ l', e ∈ l) → l'.Pairwise (fun a b => ¬ Overlap (I := I) a.1 b.1) → l'.length ≤ m.len := by
  obtain ⟨m, s1, s2, -, s4, s5⟩ := select_ok l hl hs (wf_new (V := V)) (by simp [NoditMap.new, NoditMap.iter])
  refine ⟨m, s1, s2, fun e he => (s4 e he).resolve_left (by simp [NoditMap.new, NoditMap.iter]), fun l' h1 h2 => ?_⟩
  have := at_least l' h2 (m.iter.map fun a => stop a.1) (fun e he => by
    obtain ⟨a, ha, hm⟩ := s5 e (h1 e he)
    exact ⟨_, List.mem_map_of_mem ha, hm⟩)
  simpa [NoditMap.len, NoditMap.iter] using this

/-- **C142**: the ends of the accepted intervals are a set of points that meets every request, and no set with fewer points does. -/
theorem C142_points {l : List (K × V)} (hl : ∀ e ∈ l, Valid (I := I) e.1) (hs : l.Pairwise fun a b => stop (I := I) a.1 ≤ stop b.1)
    {m : NoditMap K V} (h : select (I := I) NoditMap.new l = .ok m) :
    (∀ e ∈ l, ∃ a ∈ m.iter, Mem (stop a.1 : I) e.1) ∧
      ∀ P : List I, (∀ e ∈ l, ∃ p ∈ P, Mem p e.1) → m.len ≤ P.length := by
  obtain ⟨m', s1, s2, -, s4, s5⟩ := select_ok l hl hs (wf_new (V := V)) (by simp [NoditMap.new, NoditMap.iter])
  rw [h] at s1; cases s1
  refine ⟨s5, fun P hP => ?_⟩
  refine at_least m.iter (disjoint s2) P fun e he => ?_
  rcases s4 e he with he | he
  · simp [NoditMap.new, NoditMap.iter] at he
  · exact hP e he

end Nodit.Greedy
