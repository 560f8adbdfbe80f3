import Verif.Props.RangeUpdate
import Verif.Props.SetAlgebra
import Verif.Props.Divided
/-!
# C123: moving and exchanging ranges between two maps

A client cuts a range out of one map and inserts the pieces into another, or exchanges the contents of a range between two maps.
-/
set_option linter.unusedSectionVars false
namespace Nodit.Exchange
open Spec PointType RangeUpdate

variable {I K Q V : Type} [PointType I] [IntervalType I K] [IntervalType I Q] [LawfulPoint I] [LawfulInterval I K]

/-- client code: `let x = a.cut(q); let y = b.cut(q); for (k, v) in y { a.insert_strict(k, v).unwrap() }; for (k, v) in x {
b.insert_strict(k, v).unwrap() }`; models no lines of `/repo` -/
def exchange (a b : NoditMap K V) (q : Q) : Res (NoditMap K V × NoditMap K V) := do
  let (a, x) ← a.cut q
  let (b, y) ← b.cut q
  let a ← insertAll a y
  let b ← insertAll b x
  pure (a, b)

/-- client code: `for (k, v) in a.cut(q) { b.insert_overwrite(k, v); }` (the loop is `overlayLoop` of C100); models no lines of `/repo` -/
def move (a b : NoditMap K V) (q : Q) : Res (NoditMap K V × NoditMap K V) := do
  let (a, x) ← a.cut q
  let b ← overlayLoop b x
  pure (a, b)

theorem replace_spec {a b a' : NoditMap K V} (ha : WF a.iter) (hb : WF b.iter) {q : Q} (hq : Valid q) {x y : List (K × V)}
    {b' : NoditMap K V} (hca : a.cut q = .ok (a', x)) (hcb : b.cut q = .ok (b', y)) :
    ∃ r, insertAll a' y = .ok r ∧ WF r.iter ∧
      (∀ p, (Mem p q → r.getAtPoint p = b.getAtPoint p) ∧ (¬ Mem p q → r.getAtPoint p = a.getAtPoint p)) ∧
      ∀ e, e ∈ r.iter ↔ e ∈ a'.iter ∨ e ∈ y := by
  obtain ⟨a₁, x₁, c1, c2, c3, -⟩ := C08_cut_exact ha q hq
  rw [hca] at c1; cases c1
  obtain ⟨b₁, y₁, d1, d2, d3, -⟩ := C08_cut_exact hb q hq
  rw [hcb] at d1; cases d1
  have pa := C08_cut_pointwise ha q hq hca
  have pb := C08_cut_pointwise hb q hq hcb
  have hout : ∀ e ∈ y, ∀ p, Mem p e.1 → Mem p q ∧ ∃ d ∈ b.iter, Mem p d.1 ∧ d.2 = e.2 := fun e he p hp =>
    ((pb p).2.2 e.2).1 ⟨e, he, hp, rfl⟩
  have hin : ∀ e ∈ a'.iter, ∀ p, Mem p e.1 → ¬ Mem p q := by
    intro e he p hp hpq
    have := (pa p).1 hpq
    rw [getAtPoint_eq c2 he hp] at this
    cases this
  obtain ⟨r, r1, r2, r3⟩ := insertAll_spec c2 d3 (by
    rintro e he d hd ⟨p, hp1, hp2⟩
    exact hin e he p hp1 (hout d hd p hp2).1)
  refine ⟨r, r1, r2, fun p => ⟨fun hp => ?_, fun hp => ?_⟩, r3⟩
  · by_cases hc : ∃ d ∈ b.iter, Mem p d.1
    · obtain ⟨d, hd, hpd⟩ := hc
      obtain ⟨e, he, hpe, hev⟩ := ((pb p).2.2 d.2).2 ⟨hp, d, hd, hpd, rfl⟩
      rw [getAtPoint_eq hb hd hpd, getAtPoint_eq r2 ((r3 e).2 (.inr he)) hpe, hev]
    · rw [getAtPoint_none hb fun e he hpe => hc ⟨e, he, hpe⟩, getAtPoint_none r2 fun e he hpe => ?_]
      rcases (r3 e).1 he with he | he
      · exact hin e he p hpe hp
      · obtain ⟨-, d, hd, hpd, -⟩ := hout e he p hpe
        exact hc ⟨d, hd, hpd⟩
  · rw [← (pa p).2.1 hp]
    by_cases hc : ∃ d ∈ a'.iter, Mem p d.1
    · obtain ⟨d, hd, hpd⟩ := hc
      rw [getAtPoint_eq c2 hd hpd, getAtPoint_eq r2 ((r3 d).2 (.inl hd)) hpd]
    · rw [getAtPoint_none c2 fun e he hpe => hc ⟨e, he, hpe⟩, getAtPoint_none r2 fun e he hpe => ?_]
      rcases (r3 e).1 he with he | he
      · exact hc ⟨e, he, hpe⟩
      · exact hp (hout e he p hpe).1

/-- **C123**: exchanging a valid range never panics and no insert is refused; inside the range each map holds what the other held,
outside what it held itself. -/
theorem C123_exchange {a b : NoditMap K V} (ha : WF a.iter) (hb : WF b.iter) {q : Q} (hq : Valid q) :
    ∃ a' b', exchange a b q = .ok (a', b') ∧ WF a'.iter ∧ WF b'.iter ∧
      ∀ p, (Mem p q → a'.getAtPoint p = b.getAtPoint p ∧ b'.getAtPoint p = a.getAtPoint p) ∧
        (¬ Mem p q → a'.getAtPoint p = a.getAtPoint p ∧ b'.getAtPoint p = b.getAtPoint p) := by
  obtain ⟨a₁, x, c1, -⟩ := C08_cut_exact ha q hq
  obtain ⟨b₁, y, d1, -⟩ := C08_cut_exact hb q hq
  obtain ⟨r, r1, r2, r3, -⟩ := replace_spec ha hb hq c1 d1
  obtain ⟨s, s1, s2, s3, -⟩ := replace_spec hb ha hq d1 c1
  refine ⟨r, s, by simp only [exchange, c1, d1, r1, s1, bind, Except.bind, pure, Except.pure], r2, s2, fun p => ⟨fun hp => ?_, fun hp => ?_⟩⟩
  · exact ⟨(r3 p).1 hp, (s3 p).1 hp⟩
  · exact ⟨(r3 p).2 hp, (s3 p).2 hp⟩

/-- **C123**: exchanging twice gives back the value of every point of both maps. -/
theorem C123_exchange_twice {a b : NoditMap K V} (ha : WF a.iter) (hb : WF b.iter) {q : Q} (hq : Valid q) :
    ∃ a' b' a'' b'', exchange a b q = .ok (a', b') ∧ exchange a' b' q = .ok (a'', b'') ∧
      ∀ p : I, a''.getAtPoint p = a.getAtPoint p ∧ b''.getAtPoint p = b.getAtPoint p := by
  obtain ⟨a', b', c1, c2, c3, c4⟩ := C123_exchange ha hb hq
  obtain ⟨a'', b'', d1, d2, d3, d4⟩ := C123_exchange c2 c3 hq
  refine ⟨a', b', a'', b'', c1, d1, fun p => ?_⟩
  by_cases hp : Mem p q
  · have h1 := (c4 p).1 hp; have h2 := (d4 p).1 hp
    exact ⟨h2.1.trans h1.2, h2.2.trans h1.1⟩
  · have h1 := (c4 p).2 hp; have h2 := (d4 p).2 hp
    exact ⟨h2.1.trans h1.1, h2.2.trans h1.2⟩

/-- cutting at no entry's inside removes whole entries -/
theorem cut_whole {a : NoditMap (Interval I) V} (ha : WF (I := I) a.iter) {q : Q} (hq : Valid q)
    (hs : ∀ e ∈ a.iter, Overlap e.1 q → ∀ p : I, Mem p e.1 → Mem p q) :
    ∃ a' x, a.cut q = .ok (a', x) ∧ WF (I := I) a'.iter ∧ (∀ e, e ∈ x ↔ e ∈ a.iter ∧ Overlap e.1 q) ∧
      ∀ e, e ∈ a'.iter ↔ e ∈ a.iter ∧ ¬ Overlap e.1 q := by
  obtain ⟨a', x, h1, h2, -, h4, h5⟩ := C08_cut_exact ha q hq
  refine ⟨a', x, h1, h2, fun e => ?_, fun e => ?_⟩
  · rw [h4]
    constructor
    · rintro ⟨f, hf, i, rfl, hd⟩
      obtain ⟨p, hp⟩ := hd.1
      have hpq := (hd.2 p).1 hp
      have ho : Overlap f.1 q := ⟨p, hpq⟩
      have hi : i = f.1 := interval_eq_of_mem_iff hd.1 fun p => by
        rw [hd.2 p]; exact ⟨And.left, fun hp => ⟨hp, hs f hf ho p hp⟩⟩
      subst hi
      exact ⟨hf, ho⟩
    · rintro ⟨he, ho⟩
      exact ⟨e, he, e.1, rfl, ha.1 e he, fun p => ⟨fun hp => ⟨hp, hs e he ho p hp⟩, And.left⟩⟩
  · rw [h5]
    constructor
    · rintro (h | ⟨f, hf, ho, i, rfl, hd | hd⟩)
      · exact h
      · obtain ⟨p, hp⟩ := hd.1
        have := (hd.2 p).1 hp
        exact absurd (this.2 p (hs f hf ho p this.1)) (lt_irrefl _)
      · obtain ⟨p, hp⟩ := hd.1
        have := (hd.2 p).1 hp
        exact absurd (this.2 p (hs f hf ho p this.1)) (lt_irrefl _)
    · exact Or.inl

/-- **C123**: if no entry of either map straddles an end of the range, entries are exchanged as they are, and exchanging twice gives
back the very same maps. -/
theorem C123_exchange_whole {a b : NoditMap (Interval I) V} (ha : WF (I := I) a.iter) (hb : WF (I := I) b.iter) {q : Q} (hq : Valid q)
    (hs : ∀ e, e ∈ a.iter ∨ e ∈ b.iter → Overlap e.1 q → ∀ p : I, Mem p e.1 → Mem p q) :
    ∃ a' b', exchange a b q = .ok (a', b') ∧
      (∀ e, e ∈ a'.iter ↔ (e ∈ a.iter ∧ ¬ Overlap e.1 q) ∨ (e ∈ b.iter ∧ Overlap e.1 q)) ∧
      (∀ e, e ∈ b'.iter ↔ (e ∈ b.iter ∧ ¬ Overlap e.1 q) ∨ (e ∈ a.iter ∧ Overlap e.1 q)) ∧ exchange a' b' q = .ok (a, b) := by
  obtain ⟨a₁, x, c1, c2, c3, c4⟩ := cut_whole ha hq fun e he => hs e (.inl he)
  obtain ⟨b₁, y, d1, d2, d3, d4⟩ := cut_whole hb hq fun e he => hs e (.inr he)
  obtain ⟨r, r1, r2, -, r4⟩ := replace_spec ha hb hq c1 d1
  obtain ⟨s, s1, s2, -, s4⟩ := replace_spec hb ha hq d1 c1
  have hr : ∀ e, e ∈ r.iter ↔ (e ∈ a.iter ∧ ¬ Overlap e.1 q) ∨ (e ∈ b.iter ∧ Overlap e.1 q) := fun e => by rw [r4, c4, d3]
  have hs' : ∀ e, e ∈ s.iter ↔ (e ∈ b.iter ∧ ¬ Overlap e.1 q) ∨ (e ∈ a.iter ∧ Overlap e.1 q) := fun e => by rw [s4, d4, c3]
  refine ⟨r, s, by simp only [exchange, c1, d1, r1, s1, bind, Except.bind, pure, Except.pure], hr, hs', ?_⟩
  obtain ⟨r₁, x', c1', c2', c3', c4'⟩ := cut_whole r2 hq fun e he => hs e (((hr e).1 he).imp And.left And.left)
  obtain ⟨s₁, y', d1', d2', d3', d4'⟩ := cut_whole s2 hq fun e he => hs e (((hs' e).1 he).symm.imp And.left And.left)
  obtain ⟨a'', a1, a2, -, a4⟩ := replace_spec r2 s2 hq c1' d1'
  obtain ⟨b'', b1, b2, -, b4⟩ := replace_spec s2 r2 hq d1' c1'
  have ea : a'' = a := NoditMap.ext_entries a2 ha fun e => by
    rw [a4, c4', d3', hr, hs']
    by_cases ho : Overlap e.1 q <;> simp [ho]
  have eb : b'' = b := NoditMap.ext_entries b2 hb fun e => by
    rw [b4, d4', c3', hr, hs']
    by_cases ho : Overlap e.1 q <;> simp [ho]
  simp only [exchange, c1', d1', a1, b1, bind, Except.bind, pure, Except.pure, ea, eb]

/-- **C123**: moving a range: no call panics; the range is empty in the first map, and the second map holds what the first held in
the range, where it held something, and what it held itself elsewhere. -/
theorem C123_move {a b : NoditMap K V} (ha : WF a.iter) (hb : WF b.iter) {q : Q} (hq : Valid q) :
    ∃ a' b', move a b q = .ok (a', b') ∧ WF a'.iter ∧ WF b'.iter ∧
      ∀ p, (Mem p q → a'.getAtPoint p = .ok none ∧
          (∀ v, a.getAtPoint p = .ok (some v) → b'.getAtPoint p = .ok (some v)) ∧
          (a.getAtPoint p = .ok none → b'.getAtPoint p = b.getAtPoint p)) ∧
        (¬ Mem p q → a'.getAtPoint p = a.getAtPoint p ∧ b'.getAtPoint p = b.getAtPoint p) := by
  obtain ⟨a₁, x, c1, c2, c3, -⟩ := C08_cut_exact ha q hq
  have pa := C08_cut_pointwise ha q hq c1
  obtain ⟨b', d1, d2, d3⟩ := C100_overlay_map hb (n := ⟨x⟩) c3
  have hx : ∀ p v, (⟨x⟩ : NoditMap K V).getAtPoint p = .ok (some v) ↔ Mem p q ∧ a.getAtPoint p = .ok (some v) := by
    intro p v
    obtain ⟨r, e1, e2⟩ := NoditMap.spec_getAtPoint (m := ⟨x⟩) c3 p
    obtain ⟨r', f1, f2⟩ := NoditMap.spec_getAtPoint ha p
    have h1 := e2 v
    have h2 := f2 v
    have h3 := (pa p).2.2 v
    rw [e1, f1, Except.ok.injEq, Except.ok.injEq, h1, h2]
    exact h3
  have hn : ∀ p, ¬ (Mem p q ∧ ∃ v, a.getAtPoint p = .ok (some v)) → (⟨x⟩ : NoditMap K V).getAtPoint p = .ok none := by
    intro p hc
    obtain ⟨r, e1, -⟩ := NoditMap.spec_getAtPoint (m := ⟨x⟩) c3 p
    cases r with
    | none => exact e1
    | some v => exact absurd ⟨((hx p v).1 e1).1, v, ((hx p v).1 e1).2⟩ hc
  refine ⟨a₁, b', by
    have d1 : overlayLoop b x = .ok b' := d1
    simp only [move, c1, d1, bind, Except.bind, pure, Except.pure], c2, d2, fun p => ⟨fun hp => ⟨(pa p).1 hp, fun v hv => ?_, fun hv => ?_⟩,
    fun hp => ⟨(pa p).2.1 hp, ?_⟩⟩⟩
  · exact (d3 p).1 v ((hx p v).2 ⟨hp, hv⟩)
  · refine (d3 p).2 (hn p ?_)
    rintro ⟨-, v, hv'⟩
    rw [hv] at hv'; cases hv'
  · exact (d3 p).2 (hn p fun h => hp h.1)

end Nodit.Exchange
