import Verif.Props.SetAlgebra
import Mathlib.Data.List.Sort
/-!
# C132: the most specific interval wins

A client has routes (intervals with values) that are nested or disjoint, as IP prefixes are, and wants for every point the value of the
smallest interval containing it. It sorts the routes by start (and the longer first among those of the same start) and paints them with `insert_overwrite`.
-/
set_option linter.unusedSectionVars false
namespace Nodit.Routing
open Spec PointType NoditMap

variable {I K V : Type} [PointType I] [IntervalType I K] [LawfulPoint I] [LawfulInterval I K]

/-- client code, models no lines of `/repo`: the comparison to sort by -/
def outerFirst (a b : K × V) : Bool :=
  decide (start (I := I) a.1 < start b.1 ∨ (start (I := I) a.1 = start b.1 ∧ stop (I := I) b.1 ≤ stop a.1))

/-- client code, models no lines of `/repo`: sort, then `insert_overwrite` one by one into a new map -/
def table (es : List (K × V)) : Res (NoditMap K V) := overlayLoop NoditMap.new (es.insertionSort (fun a b => outerFirst (I := I) a b = true))

/-- every point of `a` is in `b` -/
def Inside (a b : K) : Prop := ∀ x : I, Mem x a → Mem x b

theorem inside_iff {a b : K} (ha : Valid (I := I) a) : Inside (I := I) a b ↔ start (I := I) b ≤ start a ∧ stop (I := I) a ≤ stop b :=
  ⟨fun h => ⟨(h _ ⟨le_refl _, valid_iff.1 ha⟩).1, (h _ ⟨valid_iff.1 ha, le_refl _⟩).2⟩,
   fun h _ hx => ⟨h.1.trans hx.1, hx.2.trans h.2⟩⟩

theorem sorted (es : List (K × V)) : (es.insertionSort (fun a b => outerFirst (I := I) a b = true)).Pairwise fun a b => outerFirst (I := I) a b = true := by
  have i1 : IsTrans (K × V) fun a b => outerFirst (I := I) a b = true := by
    refine ⟨?_⟩
    intro a b c hab hbc
    simp only [outerFirst, decide_eq_true_eq] at *
    rcases hab with h1 | ⟨h1, h2⟩ <;> rcases hbc with h3 | ⟨h3, h4⟩
    · exact Or.inl (h1.trans h3)
    · exact Or.inl (h3 ▸ h1)
    · exact Or.inl (h1 ▸ h3)
    · exact Or.inr ⟨h1.trans h3, h4.trans h2⟩
  have i2 : Std.Total fun a b : K × V => outerFirst (I := I) a b = true := by
    refine ⟨?_⟩
    intro a b
    simp only [outerFirst, decide_eq_true_eq]
    rcases lt_trichotomy (start (I := I) a.1) (start b.1) with h | h | h
    · exact Or.inl (Or.inl h)
    · rcases le_total (stop (I := I) b.1) (stop a.1) with h' | h'
      · exact Or.inl (Or.inr ⟨h, h'⟩)
      · exact Or.inr (Or.inr ⟨h.symm, h'⟩)
    · exact Or.inr (Or.inl h)
  exact List.pairwise_insertionSort _ es

/-- **C132**: for routes of which any two are disjoint or nested and no two have the same points, given in any order, building the table
never panics; a point has a value in it exactly if it is the value of a route containing the point that lies inside all other routes
containing the point; it has none exactly if no route contains it. -/
theorem C132_most_specific (es : List (K × V)) (hv : ∀ e ∈ es, Valid (I := I) e.1)
    (hlam : ∀ a ∈ es, ∀ b ∈ es, Overlap (I := I) a.1 b.1 → Inside (I := I) a.1 b.1 ∨ Inside (I := I) b.1 a.1)
    (hne : es.Pairwise fun a b => ¬ ∀ x : I, Mem x a.1 ↔ Mem x b.1) :
    ∃ m, table (I := I) es = .ok m ∧ WF m.iter ∧ ∀ p : I,
      (∀ v, m.getAtPoint p = .ok (some v) ↔
        ∃ e ∈ es, Mem p e.1 ∧ e.2 = v ∧ ∀ f ∈ es, Mem p f.1 → Inside (I := I) e.1 f.1) ∧
      (m.getAtPoint p = .ok none ↔ ∀ e ∈ es, ¬ Mem p e.1) := by
  set ss := es.insertionSort (fun a b => outerFirst (I := I) a b = true) with hss
  have hperm : ss.Perm es := List.perm_insertionSort _ _
  have hmem : ∀ e, e ∈ ss ↔ e ∈ es := fun e => hperm.mem_iff
  have hsorted : ss.Pairwise fun a b => outerFirst (I := I) a b = true := sorted es
  have hne' : ss.Pairwise fun a b => ¬ ∀ x : I, Mem x a.1 ↔ Mem x b.1 :=
    (hperm.pairwise_iff (fun {a b} h h' => h fun x => (h' x).symm)).2 hne
  obtain ⟨m, h1, h2, h3, h4⟩ := C100_overlay (m := (NoditMap.new : NoditMap K V)) wf_new ss fun e he => hv e ((hmem e).1 he)
  -- an earlier route is never inside a later one
  have hout : ∀ pre e post, ss = pre ++ e :: post → ∀ f ∈ post, ¬ Inside (I := I) e.1 f.1 := by
    intro pre e post hs f hf hin
    have hvf := hv f ((hmem f).1 (by rw [hs]; simp [hf]))
    have hve := hv e ((hmem e).1 (by rw [hs]; simp))
    rw [hs] at hsorted hne'
    have a1 := (List.pairwise_cons.1 (List.pairwise_append.1 hsorted).2.1).1 f hf
    have a2 := (List.pairwise_cons.1 (List.pairwise_append.1 hne').2.1).1 f hf
    obtain ⟨b1, b2⟩ := (inside_iff hve).1 hin
    simp only [outerFirst, decide_eq_true_eq] at a1
    rcases a1 with a1 | ⟨a1, a3⟩
    · exact absurd a1 (not_lt.2 b1)
    · exact a2 fun x => ⟨hin x, (inside_iff hvf).2 ⟨a1.le, a3⟩ x⟩
  have hsome : ∀ p e, e ∈ es → Mem p e.1 → (∀ f ∈ es, Mem p f.1 → Inside (I := I) e.1 f.1) → m.getAtPoint p = .ok (some e.2) := by
    intro p e he hp hall
    obtain ⟨pre, post, hs⟩ := List.append_of_mem ((hmem e).2 he)
    refine h4 p pre e post hs hp fun f hf hpf => hout pre e post hs f hf (hall f ((hmem f).1 (by rw [hs]; simp [hf])) hpf)
  have hex : ∀ p, (∃ e ∈ es, Mem p e.1) → ∃ e ∈ es, Mem p e.1 ∧ ∀ f ∈ es, Mem p f.1 → Inside (I := I) e.1 f.1 := by
    rintro p ⟨e₀, he₀, hp₀⟩
    obtain ⟨pre, e, post, hs, hpe, hpost⟩ : ∃ pre e post, ss = pre ++ e :: post ∧ Mem p e.1 ∧ ∀ f ∈ post, ¬ Mem p f.1 := by
      have he₀ := (hmem e₀).2 he₀
      clear * - he₀ hp₀
      generalize ss = l at *
      induction l with
      | nil => cases he₀
      | cons x l ih =>
        by_cases hc : ∃ e ∈ l, Mem p e.1
        · obtain ⟨e, he, hpe⟩ := hc
          obtain ⟨pre, d, post, rfl, hd, hpost⟩ : ∃ pre d post, l = pre ++ d :: post ∧ Mem p d.1 ∧ ∀ f ∈ post, ¬ Mem p f.1 := by
            clear ih he₀
            induction l generalizing e with
            | nil => cases he
            | cons y l ih =>
              by_cases hc : ∃ e ∈ l, Mem p e.1
              · obtain ⟨d, hd, hpd⟩ := hc
                obtain ⟨pre, d, post, rfl, a, b⟩ := ih d hd hpd
                exact ⟨y :: pre, d, post, rfl, a, b⟩
              · rcases List.mem_cons.1 he with rfl | he
                · exact ⟨[], e, l, rfl, hpe, fun f hf hpf => hc ⟨f, hf, hpf⟩⟩
                · exact absurd ⟨e, he, hpe⟩ hc
          exact ⟨x :: pre, d, post, rfl, hd, hpost⟩
        · rcases List.mem_cons.1 he₀ with rfl | he
          · exact ⟨[], e₀, l, rfl, hp₀, fun f hf hpf => hc ⟨f, hf, hpf⟩⟩
          · exact absurd ⟨e₀, he, hp₀⟩ hc
    have he : e ∈ es := (hmem e).1 (by rw [hs]; simp)
    refine ⟨e, he, hpe, fun f hf hpf => ?_⟩
    have hfs := (hmem f).2 hf
    rw [hs, List.mem_append, List.mem_cons] at hfs
    rcases hfs with hfs | rfl | hfs
    · rcases hlam e he f hf ⟨p, hpe, hpf⟩ with h | h
      · exact h
      · obtain ⟨a, b, hab⟩ := List.append_of_mem hfs
        exact absurd h (hout a f (b ++ e :: post) (by rw [hs, hab]; simp) e (by simp))
    · exact fun x hx => hx
    · exact absurd hpf (hpost f hfs)
  refine ⟨m, h1, h2, fun p => ?_⟩
  have hnone : (∀ e ∈ es, ¬ Mem p e.1) → m.getAtPoint p = .ok none := fun hn => by
    rw [h3 p fun e he => hn e ((hmem e).1 he), getAtPoint_none wf_new fun e he => by cases he]
  refine ⟨fun v => ⟨fun hg => ?_, ?_⟩, fun hg e he hp => ?_, hnone⟩
  · by_cases hc : ∃ e ∈ es, Mem p e.1
    · obtain ⟨e, he, hp, hall⟩ := hex p hc
      rw [hsome p e he hp hall] at hg
      cases hg
      exact ⟨e, he, hp, rfl, hall⟩
    · rw [hnone fun e he hp => hc ⟨e, he, hp⟩] at hg
      cases hg
  · rintro ⟨e, he, hp, rfl, hall⟩
    exact hsome p e he hp hall
  · obtain ⟨e, he, hp, hall⟩ := hex p ⟨e, he, hp⟩
    rw [hsome p e he hp hall] at hg
    cases hg

/-- **C132**: the order in which the routes are given does not matter: the table is the same, entry by entry. -/
theorem C132_order (es es' : List (K × V)) (hp : es.Perm es')
    (hne : es.Pairwise fun a b => ¬ ∀ x : I, Mem x a.1 ↔ Mem x b.1) : table (I := I) es' = table (I := I) es := by
  unfold table
  congr 1
  refine List.Perm.eq_of_pairwise (le := fun a b => outerFirst (I := I) a b = true) ?_ (sorted es') (sorted es)
    ((List.perm_insertionSort _ es').trans (hp.symm.trans (List.perm_insertionSort _ es).symm))
  intro a b ha hb hab hba
  have ha := hp.mem_iff.2 ((List.mem_insertionSort _).1 ha)
  have hb := (List.mem_insertionSort _).1 hb
  simp only [outerFirst, decide_eq_true_eq] at hab hba
  by_contra hc
  have h1 : start (I := I) a.1 = start b.1 := by rcases hab with h | h <;> rcases hba with h' | h' <;> order
  have h2 : stop (I := I) a.1 = stop b.1 := by rcases hab with h | h <;> rcases hba with h' | h' <;> order
  have hsame : ∀ x : I, Mem x a.1 ↔ Mem x b.1 := fun x => by simp only [Mem, h1, h2]
  obtain ⟨pre, post, rfl⟩ := List.append_of_mem ha
  obtain ⟨-, g1, g2⟩ := List.pairwise_append.1 hne
  rcases List.mem_append.1 hb with hb | hb
  · exact g2 b hb a (by simp) fun x => (hsame x).symm
  · rcases List.mem_cons.1 hb with rfl | hb
    · exact hc rfl
    · exact (List.pairwise_cons.1 g1).1 b hb hsame

end Nodit.Routing
