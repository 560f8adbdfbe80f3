import Verif.Props.Rollback
import Verif.Props.MapProps
import Verif.Props.Demo
/-!
# C120: read-modify-write over a range

A client that applies a function to the value (or absence) of every point of a range: it remembers the gaps in the range, cuts the
range out, inserts the pieces again with their new values, and fills the gaps. With addition this keeps, for every point,
the sum of what was added over ranges containing it.
-/
set_option linter.unusedSectionVars false
namespace Nodit.RangeUpdate
open Spec PointType

variable {I K Q V : Type} [PointType I] [IntervalType I K] [IntervalType I Q] [LawfulPoint I] [LawfulInterval I K]

/-- client code: `for (k, v) in l { m.insert_strict(k, v).unwrap(); }`, models no lines of `/repo` -/
def insertAll (m : NoditMap K V) : List (K × V) → Res (NoditMap K V)
  | [] => pure m
  | e :: l => do
    match ← m.insertStrict e.1 e.2 with
    | (m, .ok ()) => insertAll m l
    | (_, .error _) => .error .explicit

/-- client code, models no lines of `/repo`: apply `f` at every point of `q` (`none` stands for no value). It calls
`gaps_trimmed`, `cut` and `insert_strict` (`nodit/map.rs`). -/
def update (m : NoditMap K V) (q : Q) (f : Option V → Option V) : Res (NoditMap K V) := do
  let gaps ← m.gapsTrimmed q
  let (m, out) ← m.cut q
  let m ← insertAll m (out.filterMap fun e => (f (some e.2)).map fun v => (e.1, v))
  insertAll m (gaps.filterMap fun g => (f none).map fun v => (g, v))

theorem insertAll_spec {m : NoditMap K V} (h : WF m.iter) {l : List (K × V)} (hl : WF l)
    (hd : ∀ e ∈ m.iter, ∀ d ∈ l, ¬ Overlap e.1 d.1) :
    ∃ m', insertAll m l = .ok m' ∧ WF m'.iter ∧ ∀ e, e ∈ m'.iter ↔ e ∈ m.iter ∨ e ∈ l := by
  induction l generalizing m with
  | nil => exact ⟨m, rfl, h, by simp⟩
  | cons x l ih =>
    obtain ⟨m1, r, h1, h2, -, h4⟩ := NoditMap.spec_insertStrict h (hl.1 x (by simp)) x.2
    obtain ⟨h5, rfl⟩ := h4 (by
      rintro ⟨e, he, ho⟩
      exact hd e he x (by simp) ho)
    have h5 : ∀ e, e ∈ m1.iter ↔ e ∈ m.iter ∨ e = x := fun e => Set.ext_iff.1 h5 e
    have hp := List.pairwise_cons.1 hl.2
    obtain ⟨m', e1, e2, e3⟩ := ih h2 ⟨fun e he => hl.1 e (by simp [he]), hp.2⟩ (by
      intro e he d hdl ⟨p, hp1, hp2⟩
      rcases (h5 e).1 he with he | rfl
      · exact hd e he d (by simp [hdl]) ⟨p, hp1, hp2⟩
      · exact lt_irrefl _ (hp.1 d hdl p p hp1 hp2))
    refine ⟨m', ?_, e2, fun e => ?_⟩
    · simp only [insertAll, h1, bind, Except.bind, e1]
    · rw [e3, h5, List.mem_cons]; tauto

/-- **C120**: on a valid range the update never panics and is never refused; a point of the range gets what `f` makes of its
old value, every other point keeps its value; entries that do not meet the range stay as they are, and entries that meet it
afterwards lie inside. -/
theorem C120_update {m : NoditMap K V} (h : WF m.iter) {q : Q} (hq : Valid q) (f : Option V → Option V) :
    ∃ m', update m q f = .ok m' ∧ WF m'.iter ∧
      (∀ p, (Mem p q → m'.getAtPoint p = (m.getAtPoint p).map f) ∧ (¬ Mem p q → m'.getAtPoint p = m.getAtPoint p)) ∧
      (∀ e ∈ m.iter, ¬ Overlap e.1 q → e ∈ m'.iter) ∧
      ∀ e ∈ m'.iter, Overlap e.1 q → ∀ p, Mem p e.1 → Mem p q := by
  obtain ⟨gaps, g1, g2, -, g4⟩ := C15_gaps_trimmed h q hq
  obtain ⟨m₁, out, c1, c2, c3, c4, c5⟩ := C08_cut_exact h q hq
  have hcut := C08_cut_pointwise h q hq c1
  have hm₁ : ∀ e ∈ m₁.iter, ∀ p, Mem p e.1 → ¬ Mem p q := by
    intro e he p hp hpq
    have := (hcut p).1 hpq
    rw [getAtPoint_eq c2 he hp] at this
    cases this
  have hout : ∀ e ∈ out, ∀ p, Mem p e.1 → Mem p q ∧ ∃ d ∈ m.iter, Mem p d.1 ∧ d.2 = e.2 := fun e he p hp =>
    ((hcut p).2.2 e.2).1 ⟨e, he, hp, rfl⟩
  set l₁ := out.filterMap fun e => (f (some e.2)).map fun v => (e.1, v) with hl₁
  set l₂ := gaps.filterMap fun g => (f none).map fun v => (g, v) with hl₂
  have m₁' : ∀ e, e ∈ l₁ ↔ ∃ d ∈ out, f (some d.2) = some e.2 ∧ d.1 = e.1 := by
    rintro ⟨k, v⟩
    simp only [hl₁, List.mem_filterMap, Option.map_eq_some_iff, Prod.mk.injEq]
    constructor
    · rintro ⟨d, hd, w, hw, h1, rfl⟩; exact ⟨d, hd, hw, h1⟩
    · rintro ⟨d, hd, hw, h1⟩; exact ⟨d, hd, v, hw, h1, rfl⟩
  have m₂' : ∀ e, e ∈ l₂ ↔ e.1 ∈ gaps ∧ f none = some e.2 := by
    rintro ⟨k, v⟩
    simp only [hl₂, List.mem_filterMap, Option.map_eq_some_iff, Prod.mk.injEq]
    constructor
    · rintro ⟨d, hd, w, hw, rfl, rfl⟩; exact ⟨hd, hw⟩
    · rintro ⟨hd, hw⟩; exact ⟨k, hd, v, hw, rfl, rfl⟩
  have w₁ : WF l₁ := by
    refine ⟨fun e he => ?_, ?_⟩
    · obtain ⟨d, hd, -, h1⟩ := (m₁' e).1 he
      rw [← h1]; exact c3.1 d hd
    · refine List.Pairwise.filterMap _ ?_ c3.2
      intro a a' haa b hb b' hb'
      simp only [Option.map_eq_some_iff] at hb hb'
      obtain ⟨_, _, rfl⟩ := hb
      obtain ⟨_, _, rfl⟩ := hb'
      exact haa
  have w₂ : WF l₂ := by
    refine ⟨fun e he => g2.1 e.1 ((m₂' e).1 he).1, ?_⟩
    refine List.Pairwise.filterMap _ ?_ g2.2
    intro a a' haa b hb b' hb'
    simp only [Option.map_eq_some_iff] at hb hb'
    obtain ⟨_, _, rfl⟩ := hb
    obtain ⟨_, _, rfl⟩ := hb'
    exact haa
  obtain ⟨m₂, i1, i2, i3⟩ := insertAll_spec c2 w₁ (by
    rintro e he d hd ⟨p, hp1, hp2⟩
    obtain ⟨x, hx, -, h1⟩ := (m₁' d).1 hd
    exact hm₁ e he p hp1 (hout x hx p (h1 ▸ hp2)).1)
  have gapIn : ∀ e ∈ l₂, ∀ p, Mem p e.1 → Mem p q ∧ ¬ ∃ d ∈ m.iter, Mem p d.1 := fun e he p hp =>
    (g4 p).1 ⟨e.1, ((m₂' e).1 he).1, hp⟩
  obtain ⟨m₃, j1, j2, j3⟩ := insertAll_spec i2 w₂ (by
    rintro e he d hd ⟨p, hp1, hp2⟩
    have hg := gapIn d hd p hp2
    rcases (i3 e).1 he with he | he
    · exact hm₁ e he p hp1 hg.1
    · obtain ⟨x, hx, -, h1⟩ := (m₁' e).1 he
      obtain ⟨-, y, hy, hpy, -⟩ := hout x hx p (h1 ▸ hp1)
      exact hg.2 ⟨y, hy, hpy⟩)
  have hall : ∀ e, e ∈ m₃.iter ↔ e ∈ m₁.iter ∨ e ∈ l₁ ∨ e ∈ l₂ := fun e => by rw [j3, i3, or_assoc]
  have inq₁ : ∀ e ∈ l₁, ∀ p, Mem p e.1 → Mem p q := by
    intro e he p hp
    obtain ⟨x, hx, -, h1⟩ := (m₁' e).1 he
    exact (hout x hx p (h1 ▸ hp)).1
  refine ⟨m₃, ?_, j2, fun p => ⟨fun hp => ?_, fun hp => ?_⟩, fun e he hno => ?_, fun e he ho p hp => ?_⟩
  · simp only [update, g1, c1, bind, Except.bind]
    rw [← hl₁, ← hl₂]
    simp only [i1, j1]
  · by_cases hc : ∃ d ∈ m.iter, Mem p d.1
    · obtain ⟨d, hd, hpd⟩ := hc
      rw [getAtPoint_eq h hd hpd]
      obtain ⟨x, hx, hpx, hxv⟩ := ((hcut p).2.2 d.2).2 ⟨hp, d, hd, hpd, rfl⟩
      cases hf : f (some d.2) with
      | some v =>
        have : (x.1, v) ∈ m₃.iter := (hall _).2 (.inr (.inl ((m₁' _).2 ⟨x, hx, by rw [hxv]; exact hf, rfl⟩)))
        rw [getAtPoint_eq j2 this hpx]
        simp [Except.map, hf]
      | none =>
        rw [getAtPoint_none j2 fun e he hpe => ?_]
        · simp [Except.map, hf]
        · rcases (hall e).1 he with he | he | he
          · exact hm₁ e he p hpe hp
          · obtain ⟨y, hy, hfy, hy1⟩ := (m₁' e).1 he
            obtain ⟨-, d', hd', hpd', hv'⟩ := hout y hy p (hy1 ▸ hpe)
            obtain rfl := entries_disjoint h d' hd' d hd ⟨p, hpd', hpd⟩
            rw [← hv', hf] at hfy
            cases hfy
          · exact (gapIn e he p hpe).2 ⟨d, hd, hpd⟩
    · rw [getAtPoint_none h fun e he hpe => hc ⟨e, he, hpe⟩]
      cases hf : f none with
      | some v =>
        obtain ⟨g, hg, hpg⟩ := (g4 p).2 ⟨hp, hc⟩
        have : (g, v) ∈ m₃.iter := (hall _).2 (.inr (.inr ((m₂' _).2 ⟨hg, hf⟩)))
        rw [getAtPoint_eq j2 this hpg]
        simp [Except.map, hf]
      | none =>
        rw [getAtPoint_none j2 fun e he hpe => ?_]
        · simp [Except.map, hf]
        · rcases (hall e).1 he with he | he | he
          · exact hm₁ e he p hpe hp
          · obtain ⟨y, hy, hfy, hy1⟩ := (m₁' e).1 he
            obtain ⟨-, d', hd', hpd', -⟩ := hout y hy p (hy1 ▸ hpe)
            exact hc ⟨d', hd', hpd'⟩
          · have := ((m₂' e).1 he).2
            rw [hf] at this
            cases this
  · rw [← (hcut p).2.1 hp]
    by_cases hc : ∃ d ∈ m₁.iter, Mem p d.1
    · obtain ⟨d, hd, hpd⟩ := hc
      rw [getAtPoint_eq c2 hd hpd, getAtPoint_eq j2 ((hall d).2 (.inl hd)) hpd]
    · rw [getAtPoint_none c2 fun e he hpe => hc ⟨e, he, hpe⟩, getAtPoint_none j2 fun e he hpe => ?_]
      rcases (hall e).1 he with he | he | he
      · exact hc ⟨e, he, hpe⟩
      · exact hp (inq₁ e he p hpe)
      · exact hp (gapIn e he p hpe).1
  · exact (hall e).2 (.inl ((c5 e).2 (.inl ⟨he, hno⟩)))
  · obtain ⟨x, hx1, hx2⟩ := ho
    rcases (hall e).1 he with he | he | he
    · exact absurd hx2 (hm₁ e he x hx1)
    · exact inq₁ e he p hp
    · exact (gapIn e he p hp).1

/-- client code: one update after the other, models no lines of `/repo` -/
def updates (m : NoditMap K V) (us : List (Q × (Option V → Option V))) : Res (NoditMap K V) :=
  us.foldlM (fun m u => update m u.1 u.2) m

open scoped Classical in
/-- **C120**, histories: after any sequence of updates every point holds what the functions whose range contains it make of
its first value, in order. -/
theorem C120_history {m : NoditMap K V} (h : WF m.iter) (us : List (Q × (Option V → Option V))) (hv : ∀ u ∈ us, Valid u.1) :
    ∃ m', updates m us = .ok m' ∧ WF m'.iter ∧ ∀ p, m'.getAtPoint p =
      (m.getAtPoint p).map fun v => ((us.filter fun u => Mem p u.1).map Prod.snd).foldl (fun v f => f v) v := by
  induction us generalizing m with
  | nil =>
    refine ⟨m, rfl, h, fun p => ?_⟩
    cases m.getAtPoint p <;> rfl
  | cons u us ih =>
    obtain ⟨m₁, a1, a2, a3, -⟩ := C120_update h (hv u (by simp)) u.2
    obtain ⟨m', b1, b2, b3⟩ := ih a2 fun x hx => hv x (by simp [hx])
    refine ⟨m', by simp only [updates, List.foldlM_cons, a1, bind, Except.bind]; exact b1, b2, fun p => ?_⟩
    rw [b3]
    by_cases hp : Mem p u.1
    · rw [(a3 p).1 hp, List.filter_cons, if_pos (by simpa using hp)]
      cases m.getAtPoint p <;> rfl
    · rw [(a3 p).2 hp, List.filter_cons, if_neg (by simpa using hp)]

/-- adding `d` over a range, starting from 0 where nothing was added yet. A client, models no lines of `/repo`. -/
def addTo (d : Int) : Option Int → Option Int := fun v => some (v.getD 0 + d)

theorem foldl_addTo (l : List (Q × Int)) (v : Int) :
    (l.map fun u => addTo u.2).foldl (fun v f => f v) (some v) = some (v + (l.map Prod.snd).sum) := by
  induction l generalizing v with
  | nil => simp
  | cons x l ih =>
    simp only [List.map_cons, List.foldl_cons, List.sum_cons]
    rw [show addTo x.2 (some v) = some (v + x.2) from rfl, ih, Int.add_assoc]

open scoped Classical in
/-- **C120**, sums: starting from the empty map and adding numbers over ranges, in any order, every point holds the sum of what
was added over ranges containing it, and nothing if there was no such range. -/
theorem C120_sums (us : List (Q × Int)) (hv : ∀ u ∈ us, Valid u.1) :
    ∃ m' : NoditMap K Int, updates NoditMap.new (us.map fun u => (u.1, addTo u.2)) = .ok m' ∧
      ∀ p, m'.getAtPoint p =
        .ok (if ∃ u ∈ us, Mem p u.1 then some ((us.filter fun u => Mem p u.1).map Prod.snd).sum else none) := by
  have hw : WF (I := I) (NoditMap.new : NoditMap K Int).iter :=
    ⟨by simp [NoditMap.new, NoditMap.iter], by simp [NoditMap.new, NoditMap.iter]⟩
  obtain ⟨m', h1, -, h3⟩ := C120_history hw (us.map fun u => (u.1, addTo u.2)) (by
      intro u hu
      obtain ⟨x, hx, rfl⟩ := List.mem_map.1 hu
      exact hv x hx)
  refine ⟨m', h1, fun p => ?_⟩
  rw [h3 p, getAtPoint_none hw (by simp [NoditMap.new, NoditMap.iter]), List.filter_map, List.map_map]
  show Except.ok (((us.filter fun u => Mem p u.1).map fun u => addTo u.2).foldl (fun v f => f v) none) = _
  congr 1
  cases hf : us.filter fun u => decide (Mem p u.1) with
  | nil =>
    rw [if_neg]
    · rfl
    · rintro ⟨u, hu, hp⟩
      have : u ∈ us.filter fun u => decide (Mem p u.1) := List.mem_filter.2 ⟨hu, by simpa using hp⟩
      rw [hf] at this
      cases this
  | cons x l =>
    have : x ∈ us.filter fun u => decide (Mem p u.1) := by rw [hf]; simp
    have := List.mem_filter.1 this
    rw [if_pos ⟨x, this.1, by simpa using this.2⟩]
    simp only [List.map_cons, List.foldl_cons, List.sum_cons]
    rw [show addTo x.2 none = some (0 + x.2) from rfl, foldl_addTo, Int.zero_add]

end Nodit.RangeUpdate
