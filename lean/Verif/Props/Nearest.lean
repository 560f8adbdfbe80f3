import Verif.Props.MapProps
import Verif.Props.SetProps
import Verif.Props.Demo
/-!
# C122: nearest free points and nearest entries

The first or last item of `gaps_trimmed`, `gaps_untrimmed` or `overlapping` on a half-line is the nearest one.
-/
set_option linter.unusedSectionVars false
namespace Nodit.Nearest
open Spec PointType NoditMap

variable {I K V : Type} [PointType I] [IntervalType I K] [LawfulPoint I] [LawfulInterval I K]

/-- client code: `m.gaps_trimmed(ii(p, MAX)).next().map(|g| g.start())`; models no lines of `/repo` -/
def nextFree (m : NoditMap K V) (p : I) : Res (Option I) := do
  let gaps ← m.gapsTrimmed (⟨p, MAX⟩ : Interval I)
  pure (gaps.head?.map start)

/-- client code: the end of the last item of `m.gaps_trimmed(ii(MIN, p))`; models no lines of `/repo` -/
def prevFree (m : NoditMap K V) (p : I) : Res (Option I) := do
  let gaps ← m.gapsTrimmed (⟨MIN, p⟩ : Interval I)
  pure (gaps.getLast?.map stop)

/-- client code: `m.overlapping(ii(p, MAX)).next()`; models no lines of `/repo` -/
def nextEntry (m : NoditMap K V) (p : I) : Res (Option (K × V)) := do
  let es ← m.overlapping (⟨p, MAX⟩ : Interval I)
  pure es.head?

/-- client code: `m.overlapping(ii(MIN, p)).next_back()`; models no lines of `/repo` -/
def prevEntry (m : NoditMap K V) (p : I) : Res (Option (K × V)) := do
  let es ← m.overlapping (⟨MIN, p⟩ : Interval I)
  pure es.getLast?

theorem mem_above {p x : I} : Mem x (⟨p, MAX⟩ : Interval I) ↔ p ≤ x := ⟨fun h => h.1, fun h => ⟨h, le_max _⟩⟩
theorem mem_below {p x : I} : Mem x (⟨MIN, p⟩ : Interval I) ↔ x ≤ p := ⟨fun h => h.2, fun h => ⟨min_le _, h⟩⟩

omit [LawfulPoint I] [LawfulInterval I K] in
theorem ascending_head {l : List K} (h : Ascending (I := I) l) {k : K} (hk : l.head? = some k) :
    k ∈ l ∧ ∀ d ∈ l, ∀ p : I, Mem p d → start k ≤ p := by
  cases l with
  | nil => cases hk
  | cons x t =>
    cases hk
    have hkv : Mem (start k : I) k := ⟨le_refl _, valid_iff.1 (h.1 k (by simp))⟩
    refine ⟨by simp, fun d hd p hp => ?_⟩
    rcases List.mem_cons.1 hd with rfl | hd
    · exact hp.1
    · exact le_of_lt ((List.pairwise_cons.1 h.2).1 d hd _ p hkv hp)

omit [LawfulPoint I] [LawfulInterval I K] in
theorem ascending_last {l : List K} (h : Ascending (I := I) l) {k : K} (hk : l.getLast? = some k) :
    k ∈ l ∧ ∀ d ∈ l, ∀ p : I, Mem p d → p ≤ stop k := by
  obtain ⟨t, rfl⟩ := List.getLast?_eq_some_iff.1 hk
  have hkv : Mem (stop k : I) k := ⟨valid_iff.1 (h.1 k (by simp)), le_refl _⟩
  refine ⟨by simp, fun d hd p hp => ?_⟩
  rcases List.mem_append.1 hd with hd | hd
  · exact le_of_lt ((List.pairwise_append.1 h.2).2.2 d hd k (by simp) p _ hp hkv)
  · rw [List.mem_singleton.1 hd] at hp
    exact hp.2

omit [LawfulPoint I] [LawfulInterval I K] in
theorem wf_keys {l : List (K × V)} (h : WF (I := I) l) : Ascending (I := I) (l.map Prod.fst) :=
  ⟨fun k hk => by obtain ⟨e, he, rfl⟩ := List.mem_map.1 hk; exact h.1 e he, List.pairwise_map.2 h.2⟩

/-- **C122**: the start of the first trimmed gap from `p` on is the least free point that is at least `p`; there is none exactly if all
points from `p` on are covered. -/
theorem C122_next_free {m : NoditMap K V} (h : WF m.iter) (p : I) :
    ∃ r, nextFree m p = .ok r ∧ (∀ x, r = some x → (p ≤ x ∧ ¬ ∃ e ∈ m.iter, Mem x e.1) ∧ ∀ y, p ≤ y ∧ (¬ ∃ e ∈ m.iter, Mem y e.1) → x ≤ y) ∧
      (r = none → ∀ y, p ≤ y → ∃ e ∈ m.iter, Mem y e.1) := by
  have hq : Valid (⟨p, MAX⟩ : Interval I) := ⟨p, mem_above.2 (le_refl _)⟩
  obtain ⟨gs, g1, g2, -, g4⟩ := C15_gaps_trimmed h (⟨p, MAX⟩ : Interval I) hq
  simp only [mem_above] at g4
  refine ⟨gs.head?.map start, by simp only [nextFree, g1, bind, Except.bind, pure, Except.pure], ?_, ?_⟩
  · intro x hx
    obtain ⟨k, hk, rfl⟩ := Option.map_eq_some_iff.1 hx
    obtain ⟨a1, a2⟩ := ascending_head g2 hk
    refine ⟨(g4 _).1 ⟨k, a1, le_refl _, valid_iff.1 (g2.1 k a1)⟩, fun y hy => ?_⟩
    obtain ⟨d, hd, hyd⟩ := (g4 y).2 hy
    exact a2 d hd y hyd
  · intro hn y hy
    by_contra hc
    obtain ⟨d, hd, -⟩ := (g4 y).2 ⟨hy, hc⟩
    rw [Option.map_eq_none_iff, List.head?_eq_none_iff] at hn
    rw [hn] at hd
    cases hd

/-- **C122**: the end of the last trimmed gap up to `p` is the greatest free point that is at most `p`. -/
theorem C122_prev_free {m : NoditMap K V} (h : WF m.iter) (p : I) :
    ∃ r, prevFree m p = .ok r ∧ (∀ x, r = some x → (x ≤ p ∧ ¬ ∃ e ∈ m.iter, Mem x e.1) ∧ ∀ y, y ≤ p ∧ (¬ ∃ e ∈ m.iter, Mem y e.1) → y ≤ x) ∧
      (r = none → ∀ y, y ≤ p → ∃ e ∈ m.iter, Mem y e.1) := by
  have hq : Valid (⟨MIN, p⟩ : Interval I) := ⟨p, mem_below.2 (le_refl _)⟩
  obtain ⟨gs, g1, g2, -, g4⟩ := C15_gaps_trimmed h (⟨MIN, p⟩ : Interval I) hq
  simp only [mem_below] at g4
  refine ⟨gs.getLast?.map stop, by simp only [prevFree, g1, bind, Except.bind, pure, Except.pure], ?_, ?_⟩
  · intro x hx
    obtain ⟨k, hk, rfl⟩ := Option.map_eq_some_iff.1 hx
    obtain ⟨a1, a2⟩ := ascending_last g2 hk
    refine ⟨(g4 _).1 ⟨k, a1, valid_iff.1 (g2.1 k a1), le_refl _⟩, fun y hy => ?_⟩
    obtain ⟨d, hd, hyd⟩ := (g4 y).2 hy
    exact a2 d hd y hyd
  · intro hn y hy
    by_contra hc
    obtain ⟨d, hd, -⟩ := (g4 y).2 ⟨hy, hc⟩
    rw [Option.map_eq_none_iff, List.getLast?_eq_none_iff] at hn
    rw [hn] at hd
    cases hd

/-- **C122**: the first entry of `overlapping` from `p` on is the one containing `p`, or else the next one after `p`: no covered point
from `p` on is before it. There is none exactly if nothing from `p` on is covered. -/
theorem C122_next_entry {m : NoditMap K V} (h : WF m.iter) (p : I) :
    ∃ r, nextEntry m p = .ok r ∧
      (∀ e, r = some e → e ∈ m.iter ∧ (Mem p e.1 ∨ p < start e.1) ∧ ∀ d ∈ m.iter, ∀ y, Mem y d.1 → p ≤ y → start e.1 ≤ y) ∧
      (r = none → ∀ d ∈ m.iter, ∀ y, Mem y d.1 → y < p) := by
  have hq : Valid (⟨p, MAX⟩ : Interval I) := ⟨p, mem_above.2 (le_refl _)⟩
  obtain ⟨⟨es, e1, e2, e3⟩, -⟩ := C05_overlapping_exact h (⟨p, MAX⟩ : Interval I) hq
  have e3 : ∀ e, e ∈ es ↔ e ∈ m.iter ∧ ∃ x : I, Mem x e.1 ∧ p ≤ x := fun e => by rw [e3]; simp only [Overlap, mem_above]
  refine ⟨es.head?, by simp only [nextEntry, e1, bind, Except.bind, pure, Except.pure], ?_, ?_⟩
  · intro e he
    have hm : e ∈ es := List.mem_of_head? he
    have hmap : (es.map Prod.fst).head? = some e.1 := by rw [List.head?_map, he]; rfl
    obtain ⟨-, a2⟩ := ascending_head (wf_keys e2) hmap
    obtain ⟨b1, x, hx, hpx⟩ := (e3 e).1 hm
    refine ⟨b1, ?_, fun d hd y hy hpy => a2 d.1 (List.mem_map.2 ⟨d, (e3 d).2 ⟨hd, y, hy, hpy⟩, rfl⟩) y hy⟩
    rcases lt_or_ge p (start e.1) with hlt | hge
    · exact .inr hlt
    · exact .inl ⟨hge, le_trans hpx hx.2⟩
  · intro hn d hd y hy
    by_contra hc
    have : d ∈ es := (e3 d).2 ⟨hd, y, hy, not_lt.1 hc⟩
    rw [List.head?_eq_none_iff.1 hn] at this
    cases this

/-- **C122**: the last entry of `overlapping` up to `p` is the one containing `p`, or else the one before: no covered point up to `p`
is after it. -/
theorem C122_prev_entry {m : NoditMap K V} (h : WF m.iter) (p : I) :
    ∃ r, prevEntry m p = .ok r ∧
      (∀ e, r = some e → e ∈ m.iter ∧ (Mem p e.1 ∨ stop e.1 < p) ∧ ∀ d ∈ m.iter, ∀ y, Mem y d.1 → y ≤ p → y ≤ stop e.1) ∧
      (r = none → ∀ d ∈ m.iter, ∀ y, Mem y d.1 → p < y) := by
  have hq : Valid (⟨MIN, p⟩ : Interval I) := ⟨p, mem_below.2 (le_refl _)⟩
  obtain ⟨⟨es, e1, e2, e3⟩, -⟩ := C05_overlapping_exact h (⟨MIN, p⟩ : Interval I) hq
  have e3 : ∀ e, e ∈ es ↔ e ∈ m.iter ∧ ∃ x : I, Mem x e.1 ∧ x ≤ p := fun e => by rw [e3]; simp only [Overlap, mem_below]
  refine ⟨es.getLast?, by simp only [prevEntry, e1, bind, Except.bind, pure, Except.pure], ?_, ?_⟩
  · intro e he
    have hm : e ∈ es := List.mem_of_getLast? he
    have hmap : (es.map Prod.fst).getLast? = some e.1 := by rw [List.getLast?_map, he]; rfl
    obtain ⟨-, a2⟩ := ascending_last (wf_keys e2) hmap
    obtain ⟨b1, x, hx, hpx⟩ := (e3 e).1 hm
    refine ⟨b1, ?_, fun d hd y hy hpy => a2 d.1 (List.mem_map.2 ⟨d, (e3 d).2 ⟨hd, y, hy, hpy⟩, rfl⟩) y hy⟩
    rcases lt_or_ge (stop e.1) p with hlt | hge
    · exact .inr hlt
    · exact .inl ⟨le_trans hx.1 hpx, hge⟩
  · intro hn d hd y hy
    by_contra hc
    have : d ∈ es := (e3 d).2 ⟨hd, y, hy, not_lt.1 hc⟩
    rw [List.getLast?_eq_none_iff.1 hn] at this
    cases this

/-- **C122**: the whole gap around a free point, from the two nearest entries: the error of `get_key_value_at_point` runs from just after
the previous entry to just before the next one. -/
theorem C122_gap_between {m : NoditMap K V} (h : WF m.iter) {p : I} (hp : ¬ ∃ e ∈ m.iter, Mem p e.1) :
    ∃ g a b, m.getKeyValueAtPoint p = .ok (.error g) ∧ prevEntry m p = .ok a ∧ nextEntry m p = .ok b ∧
      (∀ x, Mem x g ↔ (∀ e, a = some e → stop e.1 < x) ∧ ∀ e, b = some e → x < start e.1) := by
  have hp' : ∀ e ∈ m.iter, ¬ Mem p e.1 := fun e he hm => hp ⟨e, he, hm⟩
  obtain ⟨g, g1, g2, g3, g4⟩ := C04_failed_lookup_returns_maximal_gap h p hp'
  obtain ⟨a, a1, a2, a3⟩ := C122_prev_entry h p
  obtain ⟨b, b1, b2, b3⟩ := C122_next_entry h p
  refine ⟨ofInterval g, a, b, g1, a1, b1, fun x => ?_⟩
  rw [mem_ofInterval]
  constructor
  · intro hx
    refine ⟨fun e he => ?_, fun e he => ?_⟩
    · obtain ⟨c1, c2, -⟩ := a2 e he
      have hlt : stop e.1 < p := c2.resolve_left (hp' e c1)
      by_contra hc
      have hv := valid_iff.1 (h.1 e c1)
      exact g3 (stop e.1) ⟨le_trans hx.1 (not_lt.1 hc), le_trans (le_of_lt hlt) g2.2⟩ e c1 ⟨hv, le_refl _⟩
    · obtain ⟨c1, c2, -⟩ := b2 e he
      have hlt : p < start e.1 := c2.resolve_left (hp' e c1)
      by_contra hc
      have hv := valid_iff.1 (h.1 e c1)
      exact g3 (start e.1) ⟨le_trans g2.1 (le_of_lt hlt), le_trans (not_lt.1 hc) hx.2⟩ e c1 ⟨le_refl _, hv⟩
  · rintro ⟨hxa, hxb⟩
    refine g4 ⟨min x p, max x p⟩ ⟨min_le_right _ _, le_max_right _ _⟩ (fun y hy d hd hyd => ?_) x ⟨min_le_left _ _, le_max_left _ _⟩
    have hy1 : min x p ≤ y := hy.1
    have hy2 : y ≤ max x p := hy.2
    rcases lt_trichotomy y p with hlt | rfl | hgt
    · cases a with
      | none => exact absurd (a3 rfl d hd y hyd) (not_lt.2 (le_of_lt hlt))
      | some e =>
        have h1 := (a2 e rfl).2.2 d hd y hyd (le_of_lt hlt)
        have h2 := hxa e rfl
        rcases min_le_iff.1 hy1 with h3 | h3 <;> order
    · exact hp' d hd hyd
    · cases b with
      | none => exact absurd (b3 rfl d hd y hyd) (not_lt.2 (le_of_lt hgt))
      | some e =>
        have h1 := (b2 e rfl).2.2 d hd y hyd (le_of_lt hgt)
        have h2 := hxb e rfl
        rcases le_max_iff.1 hy2 with h3 | h3 <;> order

end Nodit.Nearest
