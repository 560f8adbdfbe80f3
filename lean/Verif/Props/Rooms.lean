import Verif.Props.Bookings
import Mathlib.Data.Finset.Max
import Mathlib.Data.Fintype.Card
/-!
# C133: rooms for meetings

A client gives every meeting (an interval) a room: it keeps a `Gqdit` with the rooms as identifiers and, going through the meetings in the order
of their starts, takes the first room that is not among `identifiers_at_point(start)`, and inserts the meeting under that room.
-/
set_option linter.unusedSectionVars false
namespace Nodit.Rooms
open Spec PointType Gqdit

variable {I K : Type} [PointType I] [IntervalType I K] [LawfulPoint I] [LawfulInterval I K]

/-- client code, models no lines of `/repo`: `(0..=busy.len()).find(|r| !busy.contains(r)).unwrap()`, then `insert([r], k)` -/
def assign (g : Gqdit K Nat) : List K → Res (Gqdit K Nat × List Nat)
  | [] => pure (g, [])
  | k :: ks => do
    let busy ← g.identifiersAtPoint (start (I := I) k)
    let r ← unwrap ((List.range (busy.card + 1)).find? fun r => r ∉ busy)
    let g ← g.insert (I := I) {r} k
    let (g, rs) ← assign g ks
    pure (g, r :: rs)

/-- client code, models no lines of `/repo` -/
def rooms (ks : List K) : Res (Gqdit K Nat × List Nat) := do
  let g ← Gqdit.new (I := I)
  assign (I := I) g ks

theorem find_free (s : Finset Nat) : ∃ r, (List.range (s.card + 1)).find? (fun r => decide (r ∉ s)) = some r ∧ r ∉ s ∧ ∀ t < r, t ∈ s := by
  cases h : (List.range (s.card + 1)).find? (fun r => decide (r ∉ s)) with
  | none =>
    exfalso
    have hsub : Finset.range (s.card + 1) ⊆ s := fun t ht => by
      have := List.find?_eq_none.1 h t (List.mem_range.2 (Finset.mem_range.1 ht))
      simpa using this
    have := Finset.card_le_card hsub
    rw [Finset.card_range] at this
    omega
  | some r =>
    obtain ⟨h1, h2, h3⟩ := List.find?_range_eq_some.1 h
    exact ⟨r, rfl, by simpa using h1, fun t ht => by simpa using h3 t ht⟩

/-- what holds after the meetings `L` (with their rooms) -/
structure Inv (L : List (K × Nat)) (g : Gqdit K Nat) : Prop where
  hist : ∃ h : GqHist I K Nat, eval h = .ok g
  ids : ∀ p : I, ∃ s, g.identifiersAtPoint p = .ok s ∧ ∀ r, r ∈ s ↔ ∃ x ∈ L, Mem p x.1 ∧ x.2 = r
  free : L.Pairwise fun a b => Overlap (I := I) a.1 b.1 → a.2 ≠ b.2
  tight : ∀ x ∈ L, ∀ s ≤ x.2, ∃ y ∈ L, Mem (start (I := I) x.1) y.1 ∧ y.2 = s

theorem assign_spec (ks : List K) (hv : ∀ k ∈ ks, Valid (I := I) k) (hs : ks.Pairwise fun a b => start (I := I) a ≤ start b)
    {L : List (K × Nat)} {g : Gqdit K Nat} (h : Inv (I := I) L g) (hL : ∀ x ∈ L, ∀ k ∈ ks, start (I := I) x.1 ≤ start k) :
    ∃ g' rs, assign (I := I) g ks = .ok (g', rs) ∧ rs.length = ks.length ∧ Inv (I := I) (L ++ ks.zip rs) g' := by
  induction ks generalizing L g with
  | nil => exact ⟨g, [], rfl, rfl, by simpa using h⟩
  | cons k ks ih =>
    have hk := hv k (by simp)
    obtain ⟨busy, b1, b2⟩ := h.ids (start k)
    obtain ⟨r, r1, r2, r3⟩ := find_free busy
    obtain ⟨hist, he⟩ := h.hist
    obtain ⟨g1, i1, -⟩ := (rep_of_eval he).insert hk {r}
    have he1 := (eval_insert he i1).2
    have hp := List.pairwise_cons.1 hs
    have hmk : Mem (start (I := I) k) k := ⟨le_refl _, valid_iff.1 hk⟩
    have hinv : Inv (I := I) (L ++ [(k, r)]) g1 := by
      refine ⟨⟨_, he1⟩, fun p => ?_, ?_, ?_⟩
      · obtain ⟨s, s1, s2⟩ := h.ids p
        have s1' := C30_identifiers_at_point he p
        rw [s1] at s1'
        have hs : s = hist.idsAt p := by injection s1'
        refine ⟨_, C30_identifiers_at_point he1 p, fun t => ?_⟩
        by_cases hpk : Mem p k
        · simp only [GqHist.idsAt, hpk, if_true, Finset.mem_union, Finset.mem_singleton, ← hs, s2]
          simp only [List.mem_append, List.mem_singleton]
          constructor
          · rintro (⟨x, hx, hm, rfl⟩ | rfl)
            · exact ⟨x, Or.inl hx, hm, rfl⟩
            · exact ⟨_, Or.inr rfl, hpk, rfl⟩
          · rintro ⟨x, hx | rfl, hm, rfl⟩
            · exact Or.inl ⟨x, hx, hm, rfl⟩
            · exact Or.inr rfl
        · simp only [GqHist.idsAt, hpk, if_false, ← hs, s2]
          simp only [List.mem_append, List.mem_singleton]
          constructor
          · rintro ⟨x, hx, hm, rfl⟩
            exact ⟨x, Or.inl hx, hm, rfl⟩
          · rintro ⟨x, hx | rfl, hm, rfl⟩
            · exact ⟨x, hx, hm, rfl⟩
            · exact absurd hm hpk
      · refine List.pairwise_append.2 ⟨h.free, by simp, fun a ha b hb ho => ?_⟩
        rw [List.mem_singleton] at hb; subst hb
        obtain ⟨p, p1, p2⟩ := ho
        intro hr
        exact r2 ((b2 r).2 ⟨a, ha, ⟨hL a ha k (by simp), p2.1.trans p1.2⟩, hr⟩)
      · intro x hx s hsx
        rcases List.mem_append.1 hx with hx | hx
        · obtain ⟨y, hy, a, b⟩ := h.tight x hx s hsx
          exact ⟨y, by simp [hy], a, b⟩
        · rw [List.mem_singleton] at hx; subst hx
          rcases Nat.lt_or_eq_of_le hsx with hlt | heq
          · obtain ⟨y, hy, a, b⟩ := (b2 s).1 (r3 s hlt)
            exact ⟨y, by simp [hy], a, b⟩
          · exact ⟨(k, r), by simp, hmk, heq.symm⟩
    obtain ⟨g', rs, a1, a2, a3⟩ := ih (fun x hx => hv x (by simp [hx])) hp.2 hinv (by
      intro x hx y hy
      rcases List.mem_append.1 hx with hx | hx
      · exact hL x hx y (by simp [hy])
      · rw [List.mem_singleton] at hx; subst hx
        exact hp.1 y hy)
    refine ⟨g', r :: rs, by simp only [assign, b1, r1, unwrap, i1, a1, bind, Except.bind, pure, Except.pure], by simp [a2], ?_⟩
    simpa using a3

theorem inv_new : ∃ g, Gqdit.new (I := I) = .ok g ∧ Inv (I := I) ([] : List (K × Nat)) g := by
  rcases eval_rep (GqHist.new : GqHist I K Nat) with ⟨hb, -⟩ | ⟨-, g, he, -⟩
  · exact absurd hb (by simp [GqHist.Bad])
  · exact ⟨g, he, ⟨_, he⟩, fun p => ⟨_, C30_identifiers_at_point he p, by simp [GqHist.idsAt]⟩, .nil, by simp⟩

/-- **C133**: for all meetings in the order of their starts, nothing panics, every meeting gets a room, no two meetings that share a point
are in the same room, and `identifiers_at_point` gives at every point the rooms of the meetings there. -/
theorem C133_rooms (ks : List K) (hv : ∀ k ∈ ks, Valid (I := I) k) (hs : ks.Pairwise fun a b => start (I := I) a ≤ start b) :
    ∃ g rs, rooms (I := I) ks = .ok (g, rs) ∧ rs.length = ks.length ∧
      ((ks.zip rs).Pairwise fun a b => Overlap (I := I) a.1 b.1 → a.2 ≠ b.2) ∧
      ∀ p : I, ∃ s, g.identifiersAtPoint p = .ok s ∧ ∀ r, r ∈ s ↔ ∃ x ∈ ks.zip rs, Mem p x.1 ∧ x.2 = r := by
  obtain ⟨g0, e0, i0⟩ := inv_new (I := I) (K := K)
  obtain ⟨g, rs, h1, h2, h3⟩ := assign_spec ks hv hs i0 (by simp)
  rw [List.nil_append] at h3
  exact ⟨g, rs, by simp only [rooms, e0, bind, Except.bind]; exact h1, h2, h3.free, h3.ids⟩

/-- **C133**: no assignment without collisions, made in whatever way, has fewer rooms. -/
theorem C133_fewest (ks : List K) (hv : ∀ k ∈ ks, Valid (I := I) k) (hs : ks.Pairwise fun a b => start (I := I) a ≤ start b)
    {g : Gqdit K Nat} {rs : List Nat} (hr : rooms (I := I) ks = .ok (g, rs)) (rs' : List Nat) (hl : rs'.length = ks.length)
    (hf : (ks.zip rs').Pairwise fun a b => Overlap (I := I) a.1 b.1 → a.2 ≠ b.2) : rs.toFinset.card ≤ rs'.toFinset.card := by
  classical
  obtain ⟨g0, e0, i0⟩ := inv_new (I := I) (K := K)
  obtain ⟨g1, rs1, h1, h2, h3⟩ := assign_spec ks hv hs i0 (by simp)
  have : rooms (I := I) ks = .ok (g1, rs1) := by simp only [rooms, e0, bind, Except.bind]; exact h1
  rw [hr] at this; cases this
  rw [List.nil_append] at h3
  rcases rs.eq_nil_or_concat with rfl | hne
  · simp
  -- the greatest room and its meeting
  obtain ⟨r, hrm, hmax⟩ : ∃ r ∈ rs, ∀ t ∈ rs, t ≤ r := by
    have hn : rs ≠ [] := by obtain ⟨_, _, rfl⟩ := hne; simp
    have hfn : rs.toFinset.Nonempty := by
      obtain ⟨x, hx⟩ := List.exists_mem_of_ne_nil _ hn
      exact ⟨x, List.mem_toFinset.2 hx⟩
    exact ⟨rs.toFinset.max' hfn, List.mem_toFinset.1 (Finset.max'_mem _ _), fun t ht => Finset.le_max' _ _ (List.mem_toFinset.2 ht)⟩
  obtain ⟨i, hi, hir⟩ := List.mem_iff_getElem.1 hrm
  have hik : i < ks.length := by omega
  have hx : (ks[i], r) ∈ ks.zip rs := by
    rw [List.mem_iff_getElem]
    exact ⟨i, by simp; omega, by simp [hir]⟩
  have hcard : rs.toFinset.card ≤ r + 1 := by
    refine (Finset.card_le_card (t := Finset.range (r + 1)) fun t ht => ?_).trans (by simp)
    exact Finset.mem_range.2 (Nat.lt_succ_of_le (hmax t (List.mem_toFinset.1 ht)))
  refine hcard.trans ?_
  -- for every room up to `r` a meeting at that point
  have ht := h3.tight _ hx
  have hidx : ∀ s : Fin (r + 1), ∃ j : Fin ks.length, Mem (start (I := I) ks[i]) ks[j.1] ∧ rs[j.1]'(by rw [h2]; exact j.2) = s.1 := by
    intro s
    obtain ⟨y, hy, hm, hys⟩ := ht s.1 (Nat.le_of_lt_succ s.2)
    obtain ⟨j, hj, rfl⟩ := List.mem_iff_getElem.1 hy
    have hj' : j < ks.length := by simp at hj; omega
    exact ⟨⟨j, hj'⟩, by simpa using hm, by simpa using hys⟩
  choose f hf1 hf2 using hidx
  have hinj : Function.Injective f := fun a b hab => Fin.ext (by rw [← hf2 a, ← hf2 b]; simp only [hab])
  -- their rooms in the other assignment differ
  have hdiff : ∀ a b : Fin ks.length, Overlap (I := I) ks[a.1] ks[b.1] → a ≠ b → rs'[a.1]'(by rw [hl]; exact a.2) ≠ rs'[b.1]'(by rw [hl]; exact b.2) := by
    have hget := List.pairwise_iff_getElem.1 hf
    have key : ∀ a b : Fin ks.length, a.1 < b.1 → Overlap (I := I) ks[a.1] ks[b.1] →
        rs'[a.1]'(by rw [hl]; exact a.2) ≠ rs'[b.1]'(by rw [hl]; exact b.2) := by
      intro a b hab ho
      have := hget a.1 b.1 (by simp [hl]) (by simp [hl]) hab
      simp only [List.getElem_zip] at this
      exact this ho
    intro a b ho hab
    rcases Nat.lt_trichotomy a.1 b.1 with h | h | h
    · exact key a b h ho
    · exact absurd (Fin.ext h) hab
    · exact (key b a h (by obtain ⟨p, p1, p2⟩ := ho; exact ⟨p, p2, p1⟩)).symm
  have : (Finset.univ.image fun s : Fin (r + 1) => rs'[(f s).1]'(by rw [hl]; exact (f s).2)).card = r + 1 := by
    rw [Finset.card_image_of_injective, Finset.card_univ, Fintype.card_fin]
    intro a b hab
    by_contra hne
    exact hdiff (f a) (f b) ⟨_, hf1 a, hf1 b⟩ (fun h => hne (hinj h)) hab
  rw [← this]
  refine Finset.card_le_card fun t ht => ?_
  obtain ⟨s, -, rfl⟩ := Finset.mem_image.1 ht
  exact List.mem_toFinset.2 (List.getElem_mem _)

/-- **C133**: the rooms are numbered from 0 without holes, and room `r` is used only if some `r + 1` of the meetings share a point. -/
theorem C133_numbers (ks : List K) (hv : ∀ k ∈ ks, Valid (I := I) k) (hs : ks.Pairwise fun a b => start (I := I) a ≤ start b)
    {g : Gqdit K Nat} {rs : List Nat} (hr : rooms (I := I) ks = .ok (g, rs)) {r : Nat} (hrm : r ∈ rs) :
    (∀ t ≤ r, t ∈ rs) ∧ ∃ p : I, ∃ l : List K, l.Sublist ks ∧ l.length = r + 1 ∧ ∀ k ∈ l, Mem p k := by
  classical
  obtain ⟨g0, e0, i0⟩ := inv_new (I := I) (K := K)
  obtain ⟨g1, rs1, h1, h2, h3⟩ := assign_spec ks hv hs i0 (by simp)
  have : rooms (I := I) ks = .ok (g1, rs1) := by simp only [rooms, e0, bind, Except.bind]; exact h1
  rw [hr] at this; cases this
  rw [List.nil_append] at h3
  obtain ⟨i, hi, hir⟩ := List.mem_iff_getElem.1 hrm
  have hik : i < ks.length := by omega
  have hx : (ks[i], r) ∈ ks.zip rs := by
    rw [List.mem_iff_getElem]
    exact ⟨i, by simp; omega, by simp [hir]⟩
  have ht := h3.tight _ hx
  refine ⟨fun t htr => ?_, start ks[i], ?_⟩
  · obtain ⟨y, hy, -, rfl⟩ := ht t htr
    exact (List.of_mem_zip (a := y.1) (b := y.2) hy).2
  · have hlen : r + 1 ≤ (ks.filter fun k => decide (Mem (start (I := I) ks[i]) k)).length := by
      have hmap : (ks.zip rs).map Prod.fst = ks := List.map_fst_zip (by omega)
      have : (ks.filter fun k => decide (Mem (start (I := I) ks[i]) k)).length =
          ((ks.zip rs).filter fun x => decide (Mem (start (I := I) ks[i]) x.1)).length := by
        generalize start (I := I) ks[i] = p at *
        conv_lhs => rw [← hmap, List.filter_map, List.length_map]
        rfl
      rw [this, ← List.length_map Prod.snd]
      refine le_trans ?_ (List.toFinset_card_le _)
      refine le_trans (by simp) (Finset.card_le_card (s := Finset.range (r + 1)) fun t htr => ?_)
      obtain ⟨y, hy, hm, rfl⟩ := ht t (Nat.le_of_lt_succ (Finset.mem_range.1 htr))
      exact List.mem_toFinset.2 (List.mem_map.2 ⟨y, List.mem_filter.2 ⟨hy, by simpa using hm⟩, rfl⟩)
    refine ⟨(ks.filter fun k => decide (Mem (start (I := I) ks[i]) k)).take (r + 1), (List.take_sublist _ _).trans List.filter_sublist,
      by rw [List.length_take]; omega, fun k hk => ?_⟩
    simpa using (List.mem_filter.1 (List.mem_of_mem_take hk)).2

end Nodit.Rooms
