import Verif.Props.Painter
/-!
# C143: a cache of ranges

A client caches parts of a large, slow and changing table in a `NoditMap`. To read a range it fetches what `gaps_trimmed` reports as missing; what is
overwritten it cuts out.
-/
set_option linter.unusedSectionVars false
namespace Nodit.Cache
open Spec PointType NoditMap

variable {I K V D : Type} [PointType I] [IntervalType I K] [LawfulPoint I] [LawfulInterval I K]

/-- `for g in gaps { let v = fetch(&g); m.insert_strict(g, v).unwrap(); }`. A client, models no lines of `/repo`. -/
def store (fetch : K → V) (m : NoditMap K V) : List K → Res (NoditMap K V)
  | [] => pure m
  | k :: l => do
    match ← m.insertStrict (I := I) k (fetch k) with
    | (m, .ok ()) => store fetch m l
    | (_, .error _) => .error .explicit

/-- `let gaps: Vec<_> = m.gaps_trimmed(q).collect(); (fetch and insert them) m.overlapping(q)`; also returns what was fetched.
A client, models no lines of `/repo`. -/
def read (fetch : K → V) (m : NoditMap K V) (q : Interval I) : Res (NoditMap K V × List K × List (K × V)) := do
  let gaps ← m.gapsTrimmed q
  let m ← store (I := I) fetch m gaps
  let out ← m.overlapping q
  pure (m, gaps, out)

/-- What happens: ranges are read, and ranges of the table are overwritten. A client, models no lines of `/repo`. -/
inductive Event (I D : Type) where
  | read (q : Interval I)
  | write (q : Interval I) (new : I → D)

/-- the table after a write -/
noncomputable def written (table : I → D) (q : Interval I) (new : I → D) : I → D :=
  open Classical in fun p => if Mem p q then new p else table p

/-- The client: fetches from the table as it is, and cuts out what is overwritten. It returns what was fetched and found at each event.
A client, models no lines of `/repo`. -/
noncomputable def run (fetch : (I → D) → K → V) (m : NoditMap K V) (table : I → D) : List (Event I D) → Res (NoditMap K V × List (List K × List (K × V)))
  | [] => pure (m, [])
  | .read q :: l => do
    let (m, gaps, out) ← read (fetch table) m q
    let (m, outs) ← run fetch m table l
    pure (m, (gaps, out) :: outs)
  | .write q new :: l => do
    let (m, _) ← m.cut q
    let (m, outs) ← run fetch m (written table q new) l
    pure (m, ([], []) :: outs)

/-- What the events should give, if the points of `C` are in the cache: a read fetches the points of its range that are not, each once, and finds at each
point of the range exactly one entry, which has what the table has there now. `at v p` is what the chunk `v` has at the point `p`. -/
def Served («at» : V → I → D) : Set I → (I → D) → List (Event I D) → List (List K × List (K × V)) → Prop
  | _, _, [], outs => outs = []
  | C, table, .read q :: l, outs => ∃ gaps found outs', outs = (gaps, found) :: outs' ∧
      Ascending (I := I) gaps ∧ (∀ p, (∃ g ∈ gaps, Mem p g) ↔ Mem p q ∧ p ∉ C) ∧
      WF (I := I) found ∧ (∀ e ∈ found, Overlap e.1 q) ∧ (∀ p, Mem p q → ∃ e ∈ found, Mem p e.1) ∧ (∀ e ∈ found, ∀ p, Mem p e.1 → «at» e.2 p = table p) ∧
      Served «at» {p | p ∈ C ∨ Mem p q} table l outs'
  | C, table, .write q new :: l, outs => ∃ outs', outs = ([], []) :: outs' ∧
      Served «at» {p | p ∈ C ∧ ¬ Mem p q} (written table q new) l outs'

/-- the events' intervals are valid -/
def Fine : Event I D → Prop
  | .read q => Valid q
  | .write q _ => Valid q

theorem store_eq (fetch : K → V) (m : NoditMap K V) (l : List K) {m' : NoditMap K V}
    (h : m.fromIterStrictFrom (I := I) (l.map fun k => (k, fetch k)) = .ok (.ok m')) : store (I := I) fetch m l = .ok m' := by
  induction l generalizing m with
  | nil => cases h; rfl
  | cons k l ih =>
    simp only [List.map_cons, NoditMap.fromIterStrictFrom, bind, Except.bind] at h
    simp only [store, bind, Except.bind]
    cases hk : m.insertStrict (I := I) k (fetch k) with
    | error e => rw [hk] at h; cases h
    | ok r =>
      obtain ⟨m1, r⟩ := r
      rw [hk] at h
      cases r with
      | error e => cases h
      | ok u => exact ih m1 h

theorem run_served {«at» : V → I → D} {fetch : (I → D) → K → V} (hf : ∀ table k p, Mem p k → «at» (fetch table k) p = table p)
    (l : List (Event I D)) (hl : ∀ x ∈ l, Fine x) {m : NoditMap K V} (h : WF (I := I) m.iter) {table : I → D}
    (hm : ∀ e ∈ m.iter, ∀ p, Mem p e.1 → «at» e.2 p = table p) :
    ∃ m' outs, run fetch m table l = .ok (m', outs) ∧ WF (I := I) m'.iter ∧ Served «at» {p | ∃ e ∈ m.iter, Mem p e.1} table l outs := by
  induction l generalizing m table with
  | nil => exact ⟨m, [], rfl, h, rfl⟩
  | cons x l ih =>
    have hx := hl x (by simp)
    have hl' := fun y hy => hl y (List.mem_cons_of_mem _ hy)
    cases x with
    | read q =>
      obtain ⟨gs, g1, g2, -, g4⟩ := C15_gaps_trimmed h q hx
      obtain ⟨m1, s1, s2, s3, -⟩ := C59_fill_gaps h hx (Or.inl g1) (l := gs.map fun g => (g, fetch table g)) (by simp [Function.comp_def])
      have w1 := wf_of_fromIterStrictFrom h s1
      have hmem : ∀ e, e ∈ m1.iter ↔ e ∈ m.iter ∨ (e.1 ∈ gs ∧ e.2 = fetch table e.1) := fun e => by
        rw [s2, List.mem_map]
        refine or_congr_right ⟨?_, ?_⟩
        · rintro ⟨g, hg, rfl⟩; exact ⟨hg, rfl⟩
        · rintro ⟨hg, he⟩; exact ⟨e.1, hg, by rw [← he]⟩
      have hdata : ∀ e ∈ m1.iter, ∀ p, Mem p e.1 → «at» e.2 p = table p := fun e he p hp => by
        rcases (hmem e).1 he with he | ⟨-, he⟩
        · exact hm e he p hp
        · rw [he]; exact hf table e.1 p hp
      obtain ⟨out, o1, o2, o3⟩ := (C05_overlapping_exact w1 q hx).1
      obtain ⟨m2, outs, r1, r2, r3⟩ := ih hl' w1 hdata
      refine ⟨m2, (gs, out) :: outs, by simp only [run, read, g1, store_eq _ m gs s1, o1, r1, bind, Except.bind, pure, Except.pure], r2,
        gs, out, outs, rfl, g2, g4, o2, fun e he => ((o3 e).1 he).2, fun p hp => ?_, fun e he => hdata e ((o3 e).1 he).1, ?_⟩
      · by_cases hc : ∃ e ∈ m.iter, Mem p e.1
        · obtain ⟨e, he, hpe⟩ := hc
          exact ⟨e, (o3 e).2 ⟨(hmem e).2 (Or.inl he), p, hpe, hp⟩, hpe⟩
        · obtain ⟨g, hg, hpg⟩ := (g4 p).2 ⟨hp, hc⟩
          exact ⟨(g, fetch table g), (o3 _).2 ⟨(hmem _).2 (Or.inr ⟨hg, rfl⟩), p, hpg, hp⟩, hpg⟩
      · convert r3 using 1
        ext p
        constructor
        · rintro (⟨e, he, hp⟩ | hp)
          · exact ⟨e, (hmem e).2 (Or.inl he), hp⟩
          · by_cases hc : ∃ e ∈ m.iter, Mem p e.1
            · obtain ⟨e, he, hpe⟩ := hc
              exact ⟨e, (hmem e).2 (Or.inl he), hpe⟩
            · obtain ⟨g, hg, hpg⟩ := (g4 p).2 ⟨hp, hc⟩
              exact ⟨(g, fetch table g), (hmem _).2 (Or.inr ⟨hg, rfl⟩), hpg⟩
        · rintro ⟨e, he, hp⟩
          rcases (hmem e).1 he with he | ⟨hg, -⟩
          · exact Or.inl ⟨e, he, hp⟩
          · exact Or.inr ((g4 p).1 ⟨e.1, hg, hp⟩).1
    | write q new =>
      obtain ⟨m1, out, c1, w1, -, -, c5⟩ := C08_cut_exact h q hx
      have hfrom : ∀ e ∈ m1.iter, ∀ p, Mem p e.1 → ¬ Mem p q ∧ ∃ f ∈ m.iter, Mem p f.1 ∧ f.2 = e.2 := by
        intro e he p hp
        rcases (c5 e).1 he with ⟨he, ho⟩ | ⟨f, hf', -, i, rfl, hd⟩
        · exact ⟨fun hq => ho ⟨p, hp, hq⟩, e, he, hp, rfl⟩
        · have hp' : Mem p i := by
            have : Mem (p : I) (ofInterval i : K) := hp
            rwa [Mem, LawfulInterval.start_of, LawfulInterval.stop_of] at this
          rcases hd with hd | hd
          · have := (hd.2 p).1 hp'; exact ⟨fun hq => lt_irrefl _ (this.2 p hq), f, hf', this.1, rfl⟩
          · have := (hd.2 p).1 hp'; exact ⟨fun hq => lt_irrefl _ (this.2 p hq), f, hf', this.1, rfl⟩
      obtain ⟨m2, outs, r1, r2, r3⟩ := ih hl' w1 (table := written table q new) (by
        intro e he p hp
        obtain ⟨hq, f, hf', hpf, hv⟩ := hfrom e he p hp
        rw [written, if_neg hq, ← hv]
        exact hm f hf' p hpf)
      refine ⟨m2, ([], []) :: outs, by simp only [run, c1, r1, bind, Except.bind, pure, Except.pure], r2, outs, rfl, ?_⟩
      convert r3 using 1
      ext p
      constructor
      · rintro ⟨⟨e, he, hp⟩, hq⟩
        by_cases ho : Overlap e.1 q
        · have hv := valid_iff.1 (h.1 e he)
          have hvq := valid_iff.1 hx
          by_cases hlt : p < start q
          · obtain ⟨d, hd⟩ : ∃ i : Interval I, Describes i (fun p => Mem p e.1 ∧ ∀ x, Mem x q → p < x) := by
              obtain ⟨d, d1, -, d3, -⟩ := down_exists hlt
              obtain ⟨-, d5⟩ := LawfulPoint.down_some _ _ d1
              refine ⟨⟨start e.1, min (stop e.1) d⟩, ⟨p, hp.1, le_min hp.2 d3⟩, fun x => ?_⟩
              show (start e.1 ≤ x ∧ x ≤ min (stop e.1) d) ↔ _
              rw [le_min_iff]
              constructor
              · rintro ⟨x1, x2, x3⟩
                have := (LawfulPoint.down_some _ _ d1).1
                exact ⟨⟨x1, x2⟩, fun y hy => lt_of_le_of_lt x3 (lt_of_lt_of_le this hy.1)⟩
              · rintro ⟨⟨x1, x2⟩, x3⟩
                exact ⟨x1, x2, d5 x (x3 _ ⟨le_refl _, hvq⟩)⟩
            exact ⟨(ofInterval d, e.2), (c5 _).2 (Or.inr ⟨e, he, ho, d, rfl, Or.inl hd⟩), by
              rw [Mem, LawfulInterval.start_of, LawfulInterval.stop_of]
              exact (hd.2 p).2 ⟨hp, fun x hx => lt_of_lt_of_le hlt hx.1⟩⟩
          · have hgt : stop q < p := by
              by_contra hc
              exact hq ⟨not_lt.1 hlt, not_lt.1 hc⟩
            obtain ⟨d, hd⟩ : ∃ i : Interval I, Describes i (fun p => Mem p e.1 ∧ ∀ x, Mem x q → x < p) := by
              obtain ⟨d, d1, -, d3, -⟩ := up_exists hgt
              obtain ⟨-, d5⟩ := LawfulPoint.up_some _ _ d1
              refine ⟨⟨max (start e.1) d, stop e.1⟩, ⟨p, max_le hp.1 d3, hp.2⟩, fun x => ?_⟩
              show (max (start e.1) d ≤ x ∧ x ≤ stop e.1) ↔ _
              rw [max_le_iff]
              constructor
              · rintro ⟨⟨x1, x2⟩, x3⟩
                have := (LawfulPoint.up_some _ _ d1).1
                exact ⟨⟨x1, x3⟩, fun y hy => lt_of_le_of_lt hy.2 (lt_of_lt_of_le this x2)⟩
              · rintro ⟨⟨x1, x2⟩, x3⟩
                exact ⟨⟨x1, d5 x (x3 _ ⟨hvq, le_refl _⟩)⟩, x2⟩
            exact ⟨(ofInterval d, e.2), (c5 _).2 (Or.inr ⟨e, he, ho, d, rfl, Or.inr hd⟩), by
              rw [Mem, LawfulInterval.start_of, LawfulInterval.stop_of]
              exact (hd.2 p).2 ⟨hp, fun x hx => lt_of_le_of_lt hx.2 hgt⟩⟩
        · exact ⟨e, (c5 e).2 (Or.inl ⟨he, ho⟩), hp⟩
      · rintro ⟨e, he, hp⟩
        obtain ⟨hq, f, hf', hpf, -⟩ := hfrom e he p hp
        exact ⟨⟨f, hf', hpf⟩, hq⟩

/-- **C143**: over any sequence of reads and writes with valid intervals, starting with an empty cache, the client does not panic, and each read fetches
exactly the points of its range that were not read since they were last written, each once, and finds at every point of the range what the table has
there at this time. -/
theorem C143_served {«at» : V → I → D} {fetch : (I → D) → K → V} (hf : ∀ table k p, Mem p k → «at» (fetch table k) p = table p)
    (l : List (Event I D)) (hl : ∀ x ∈ l, Fine x) (table : I → D) :
    ∃ m outs, run fetch NoditMap.new table l = .ok (m, outs) ∧ Served «at» ∅ table l outs := by
  obtain ⟨m, outs, h1, -, h3⟩ := run_served hf l hl (m := NoditMap.new) (table := table) (by simp [WF, NoditMap.new, NoditMap.iter])
    (by simp [NoditMap.new, NoditMap.iter])
  refine ⟨m, outs, h1, ?_⟩
  convert h3 using 1
  ext p; simp [NoditMap.new, NoditMap.iter]

/-- only reads -/
def reads (qs : List (Interval I)) : List (Event I D) := qs.map .read

theorem served_once {«at» : V → I → D} (qs : List (Interval I)) {C : Set I} {table : I → D} {outs : List (List K × List (K × V))}
    (h : Served «at» C table (reads qs) outs) :
    (outs.flatMap Prod.fst).Pairwise (fun a b => ¬ Overlap (I := I) a b) ∧
      ∀ p, (∃ g ∈ outs.flatMap Prod.fst, Mem p g) ↔ p ∉ C ∧ ∃ q ∈ qs, Mem p q := by
  induction qs generalizing C outs with
  | nil =>
    have h : outs = [] := h
    subst h
    simp
  | cons q qs ih =>
    obtain ⟨gs, found, outs', rfl, g1, g2, -, -, -, -, g3⟩ := h
    obtain ⟨i1, i2⟩ := ih g3
    rw [List.flatMap_cons]
    refine ⟨List.pairwise_append.2 ⟨g1.2.imp fun hab ⟨p, hp, hp'⟩ => lt_irrefl p (hab p p hp hp'), i1, ?_⟩, fun p => ?_⟩
    · rintro a ha b hb ⟨p, hp, hp'⟩
      exact ((i2 p).1 ⟨b, hb, hp'⟩).1 (Or.inr ((g2 p).1 ⟨a, ha, hp⟩).1)
    · have e1 : (∃ g ∈ gs ++ outs'.flatMap Prod.fst, Mem p g) ↔ (∃ g ∈ gs, Mem p g) ∨ ∃ g ∈ outs'.flatMap Prod.fst, Mem p g := by
        simp only [List.mem_append, or_and_right, exists_or]
      rw [e1, g2, i2, show p ∉ {p | p ∈ C ∨ Mem p q} ↔ ¬ (p ∈ C ∨ Mem p q) from Iff.rfl]
      simp only [List.mem_cons, exists_eq_or_imp]
      tauto

/-- **C143**: while nothing is written, all that is ever fetched are disjoint intervals, which together have exactly the points read. -/
theorem C143_once {«at» : V → I → D} {fetch : (I → D) → K → V} (hf : ∀ table k p, Mem p k → «at» (fetch table k) p = table p)
    (qs : List (Interval I)) (hq : ∀ q ∈ qs, Valid q) (table : I → D) :
    ∃ m outs, run fetch NoditMap.new table (reads qs) = .ok (m, outs) ∧
      (outs.flatMap Prod.fst).Pairwise (fun a b => ¬ Overlap (I := I) a b) ∧
      ∀ p, (∃ g ∈ outs.flatMap Prod.fst, Mem p g) ↔ ∃ q ∈ qs, Mem p q := by
  obtain ⟨m, outs, h1, h2⟩ := C143_served hf (reads qs) (by
    intro x hx
    obtain ⟨q, hq', rfl⟩ := List.mem_map.1 hx
    exact hq q hq') table
  obtain ⟨h3, h4⟩ := served_once qs h2
  exact ⟨m, outs, h1, h3, fun p => by simpa using h4 p⟩

end Nodit.Cache
