import Verif.Props.SetAlgebra
import Verif.Props.ZosditExact
import Verif.Props.Demo
/-!
# C114: first come, first served

What a sequence of strict inserts, some of which are refused, leaves behind; and filling what is free of an interval instead.
-/
set_option linter.unusedSectionVars false
namespace Nodit
open Spec PointType

section
variable {I K V : Type} [PointType I] [IntervalType I K] [LawfulPoint I] [LawfulInterval I K]

/-- **C114**: in a sequence of `insert_strict` calls a call with a valid interval is accepted exactly if its interval overlaps no entry that
was there before and none of the intervals accepted before it, otherwise it hands its value back; a call with an invalid one panics; the
map ends up with what it had and what was accepted. -/
theorem C114_strict_inserts [BEq V] {m : NoditMap K V} (h : WF m.iter) (es : List (K × V)) :
    ∃ m' outs, m.run (es.map fun e => (.insertStrict e.1 e.2 : Op I K V)) = (m', outs) ∧ outs.length = es.length ∧
      (∀ e, e ∈ m'.iter ↔ e ∈ m.iter ∨ ∃ i : Nat, es[i]? = some e ∧ outs[i]? = some (.ok (.strict (.ok ())))) ∧
      ∀ (i : Nat) (e : K × V), es[i]? = some e →
        (¬ Valid e.1 → outs[i]? = some (.error .invalidInterval)) ∧
        (Valid e.1 →
          (outs[i]? = some (.ok (.strict (.ok ()))) ↔ (∀ d ∈ m.iter, ¬ Overlap d.1 e.1) ∧
            ∀ (j : Nat) (d : K × V), j < i → es[j]? = some d → outs[j]? = some (.ok (.strict (.ok ()))) → ¬ Overlap d.1 e.1) ∧
          (outs[i]? ≠ some (.ok (.strict (.ok ()))) → outs[i]? = some (.ok (.strict (.error e.2))))) := by
  induction es generalizing m with
  | nil => exact ⟨m, [], rfl, rfl, by simp, by simp⟩
  | cons x es ih =>
    obtain ⟨k, v⟩ := x
    simp only [List.map_cons, NoditMap.run]
    by_cases hk : Valid k
    · obtain ⟨m1, r, h1, h2, h3, h4⟩ := C06_insert_strict h k hk v
      obtain ⟨m', outs, e1, e2, e3, e4⟩ := ih h2
      by_cases ho : ∃ e ∈ m.iter, Overlap e.1 k
      · obtain ⟨rfl, rfl⟩ := h3 ho
        refine ⟨m', .ok (.strict (.error v)) :: outs, ?_, by simp [e2], fun e => ?_, fun i e hi => ?_⟩
        · simp only [NoditMap.step, h1, bind, Except.bind, pure, Except.pure, NoditMap.errValue, e1]
        · rw [e3]
          refine or_congr_right ⟨fun ⟨i, hi⟩ => ⟨i + 1, by simpa using hi⟩, ?_⟩
          rintro ⟨i, hi, hi'⟩
          cases i with
          | zero => simp at hi'
          | succ i => exact ⟨i, by simpa using hi, by simpa using hi'⟩
        · cases i with
          | zero =>
            simp only [List.getElem?_cons_zero, Option.some.injEq] at hi ⊢
            subst hi
            refine ⟨fun hn => absurd hk hn, fun _ => ⟨⟨fun hc => (nomatch hc), fun hc => ?_⟩, fun _ => rfl⟩⟩
            obtain ⟨d, hd, hdo⟩ := ho
            exact absurd hdo (hc.1 d hd)
          | succ i =>
            simp only [List.getElem?_cons_succ] at hi ⊢
            obtain ⟨f1, f2⟩ := e4 i e hi
            refine ⟨f1, fun hv => ⟨(f2 hv).1.trans (and_congr_right fun _ => ?_), (f2 hv).2⟩⟩
            constructor
            · intro hj j d hji hd hjo
              cases j with
              | zero => simp at hjo
              | succ j => exact hj j d (by omega) (by simpa using hd) (by simpa using hjo)
            · intro hj j d hji hd hjo
              exact hj (j + 1) d (by omega) (by simpa using hd) (by simpa using hjo)
      · have ho' : ∀ e ∈ m.iter, ¬ Overlap e.1 k := fun e he hc => ho ⟨e, he, hc⟩
        obtain ⟨rfl, h5, -⟩ := h4 ho'
        refine ⟨m', .ok (.strict (.ok ())) :: outs, ?_, by simp [e2], fun e => ?_, fun i e hi => ?_⟩
        · simp only [NoditMap.step, h1, bind, Except.bind, pure, Except.pure, NoditMap.errValue, e1]
        · rw [e3, h5]
          constructor
          · rintro ((he | rfl) | ⟨i, hi⟩)
            · exact Or.inl he
            · exact Or.inr ⟨0, by simp⟩
            · exact Or.inr ⟨i + 1, by simpa using hi⟩
          · rintro (he | ⟨i, hi, hi'⟩)
            · exact Or.inl (Or.inl he)
            · cases i with
              | zero => simp only [List.getElem?_cons_zero, Option.some.injEq] at hi; exact Or.inl (Or.inr hi.symm)
              | succ i => exact Or.inr ⟨i, by simpa using hi, by simpa using hi'⟩
        · cases i with
          | zero =>
            simp only [List.getElem?_cons_zero, Option.some.injEq] at hi ⊢
            subst hi
            exact ⟨fun hn => absurd hk hn, fun _ => ⟨⟨fun _ => ⟨ho', fun j _ hj => absurd hj (Nat.not_lt_zero j)⟩, fun _ => trivial⟩, fun hc => absurd rfl hc⟩⟩
          | succ i =>
            simp only [List.getElem?_cons_succ] at hi ⊢
            obtain ⟨f1, f2⟩ := e4 i e hi
            refine ⟨f1, fun hv => ⟨(f2 hv).1.trans ?_, (f2 hv).2⟩⟩
            constructor
            · rintro ⟨hm, hj⟩
              refine ⟨fun d hd => hm d ((h5 d).2 (Or.inl hd)), fun j d hji hd hjo => ?_⟩
              cases j with
              | zero =>
                simp only [List.getElem?_cons_zero, Option.some.injEq] at hd
                exact hm d ((h5 d).2 (Or.inr hd.symm))
              | succ j => exact hj j d (by omega) (by simpa using hd) (by simpa using hjo)
            · rintro ⟨hm, hj⟩
              refine ⟨fun d hd => ?_, fun j d hji hd hjo => hj (j + 1) d (by omega) (by simpa using hd) (by simpa using hjo)⟩
              rcases (h5 d).1 hd with hd | rfl
              · exact hm d hd
              · exact hj 0 _ (by omega) (by simp) (by simp)
    · obtain ⟨m', outs, e1, e2, e3, e4⟩ := ih h
      refine ⟨m', .error .invalidInterval :: outs, ?_, by simp [e2], fun e => ?_, fun i e hi => ?_⟩
      · simp only [NoditMap.step, NoditMap.panic_insertStrict hk, bind, Except.bind, e1]
      · rw [e3]
        refine or_congr_right ⟨fun ⟨i, hi⟩ => ⟨i + 1, by simpa using hi⟩, ?_⟩
        rintro ⟨i, hi, hi'⟩
        cases i with
        | zero => simp at hi'
        | succ i => exact ⟨i, by simpa using hi, by simpa using hi'⟩
      · cases i with
        | zero =>
          simp only [List.getElem?_cons_zero, Option.some.injEq] at hi ⊢
          subst hi
          exact ⟨fun _ => trivial, fun hv => absurd hv hk⟩
        | succ i =>
          simp only [List.getElem?_cons_succ] at hi ⊢
          obtain ⟨f1, f2⟩ := e4 i e hi
          refine ⟨f1, fun hv => ⟨(f2 hv).1.trans (and_congr_right fun _ => ?_), (f2 hv).2⟩⟩
          constructor
          · intro hj j d hji hd hjo
            cases j with
            | zero => simp at hjo
            | succ j => exact hj j d (by omega) (by simpa using hd) (by simpa using hjo)
          · intro hj j d hji hd hjo
            exact hj (j + 1) d (by omega) (by simpa using hd) (by simpa using hjo)

/-- client code: `for (k, v) in es { for g in m.gaps_trimmed(k).collect() { m.insert_strict(g, v.clone())?; } }`
(`fromIterStrictFrom` is such a loop of `insert_strict`). Calls `/repo/src/nodit/map.rs:617-650,714-728`; models no lines of `/repo` itself. -/
def fillLoop (m : NoditMap K V) : List (K × V) → Res (Except (OverlapError V) (NoditMap K V))
  | [] => pure (.ok m)
  | e :: es => do
    let gaps : List K ← m.gapsTrimmed e.1
    match ← m.fromIterStrictFrom (gaps.map fun g => (g, e.2)) with
    | .error err => pure (.error err)
    | .ok m => fillLoop m es

theorem wf_of_fromIterStrictFrom {m m' : NoditMap K V} (h : WF m.iter) {l : List (K × V)} (hl : m.fromIterStrictFrom l = .ok (.ok m')) :
    WF m'.iter := by
  induction l generalizing m with
  | nil => cases hl; exact h
  | cons e l ih =>
    by_cases hk : Valid e.1
    · obtain ⟨m1, r, h1, h2, -⟩ := C06_insert_strict h e.1 hk e.2
      simp only [NoditMap.fromIterStrictFrom, h1, bind, Except.bind] at hl
      cases r with
      | error x => simp [pure, Except.pure] at hl
      | ok u => exact ih h2 hl
    · simp only [NoditMap.fromIterStrictFrom, NoditMap.panic_insertStrict hk, bind, Except.bind] at hl
      cases hl

/-- **C114**: filling what is free of each interval in turn never meets an occupied point: no call panics or is refused, all entries stay, a
point that had no value gets that of the first interval in the sequence that contains it. -/
theorem C114_fill {m : NoditMap K V} (h : WF m.iter) (es : List (K × V)) (hes : ∀ e ∈ es, Valid e.1) :
    ∃ m', fillLoop m es = .ok (.ok m') ∧ WF m'.iter ∧ (∀ e ∈ m.iter, e ∈ m'.iter) ∧
      (∀ e ∈ es, m'.containsInterval e.1 = .ok true) ∧
      (∀ p v, m.getAtPoint p = .ok (some v) → m'.getAtPoint p = .ok (some v)) ∧
      (∀ p, m.getAtPoint p = .ok none → (∀ e ∈ es, ¬ Mem p e.1) → m'.getAtPoint p = .ok none) ∧
      ∀ p pre e post, m.getAtPoint p = .ok none → es = pre ++ e :: post → Mem p e.1 → (∀ f ∈ pre, ¬ Mem p f.1) →
        m'.getAtPoint p = .ok (some e.2) := by
  have look : ∀ {m : NoditMap K V}, WF m.iter → ∀ p v, m.getAtPoint p = .ok (some v) ↔ ∃ e ∈ m.iter, Mem p e.1 ∧ e.2 = v := by
    intro m h p v
    obtain ⟨-, ⟨r, h1, h2⟩, -⟩ := C03_point_lookup h p
    rw [h1, ← h2, Except.ok.injEq]
  have lookNone : ∀ {m : NoditMap K V}, WF m.iter → ∀ p, m.getAtPoint p = .ok none ↔ ∀ e ∈ m.iter, ¬ Mem p e.1 := by
    intro m h p
    obtain ⟨-, ⟨r, h1, h2⟩, -⟩ := C03_point_lookup h p
    rw [h1, Except.ok.injEq]
    constructor
    · rintro rfl e he hp
      exact nomatch (h2 e.2).2 ⟨e, he, hp, rfl⟩
    · intro hn
      cases r with
      | none => rfl
      | some v => obtain ⟨e, he, hp, -⟩ := (h2 v).1 rfl; exact absurd hp (hn e he)
  induction es generalizing m with
  | nil =>
    refine ⟨m, rfl, h, fun _ => id, by simp, fun _ _ => id, fun p hp _ => hp, fun p pre e post _ hc => by simp at hc⟩
  | cons x es ih =>
    have hx : Valid x.1 := hes x (by simp)
    obtain ⟨gaps, g1, g2, -, g3⟩ := C15_gaps_trimmed h x.1 hx
    obtain ⟨m1, f1, f2, f3, -⟩ := C59_fill_gaps h hx (Or.inl g1) (l := gaps.map fun g => (g, x.2)) (by
      rw [List.map_map]; exact List.Perm.of_eq (List.map_id gaps))
    have hw1 : WF m1.iter := wf_of_fromIterStrictFrom h f1
    obtain ⟨m', e1, e2, e3, e4, e5, e6, e7⟩ := ih hw1 fun e he => hes e (List.mem_cons_of_mem _ he)
    have hfree : ∀ p, m.getAtPoint p = .ok none → Mem p x.1 → m1.getAtPoint p = .ok (some x.2) := by
      intro p hp hpx
      have hn := (lookNone h p).1 hp
      obtain ⟨g, hg, hpg⟩ := (g3 p).2 ⟨hpx, fun ⟨e, he, hpe⟩ => hn e he hpe⟩
      exact (look hw1 p _).2 ⟨(g, x.2), (f2 _).2 (Or.inr (by simpa using hg)), hpg, rfl⟩
    have hfree' : ∀ p, m.getAtPoint p = .ok none → ¬ Mem p x.1 → m1.getAtPoint p = .ok none := by
      intro p hp hpx
      have hn := (lookNone h p).1 hp
      refine (lookNone hw1 p).2 fun e he hpe => ?_
      rcases (f2 e).1 he with he | he
      · exact hn e he hpe
      · obtain ⟨g, hg, rfl⟩ := List.mem_map.1 he
        exact hpx ((g3 p).1 ⟨g, hg, hpe⟩).1
    refine ⟨m', ?_, e2, fun e he => e3 e ((f2 e).2 (Or.inl he)), ?_, ?_, ?_, ?_⟩
    · simp only [fillLoop, g1, f1, bind, Except.bind]; exact e1
    · intro e he
      rcases List.mem_cons.1 he with rfl | he
      · obtain ⟨b, b1, b2⟩ := C16_contains_interval hw1 e.1 hx
        obtain ⟨c, c1, c2⟩ := C16_contains_interval e2 e.1 hx
        rw [f3] at b1; cases b1
        rw [c1, (c2.2 fun p hp => ?_ : c = true)]
        obtain ⟨d, hd, hpd⟩ := b2.1 rfl p hp
        exact ⟨d, e3 d hd, hpd⟩
      · exact e4 e he
    · intro p v hp
      refine e5 p v ((look hw1 p v).2 ?_)
      obtain ⟨e, he, h'⟩ := (look h p v).1 hp
      exact ⟨e, (f2 e).2 (Or.inl he), h'⟩
    · intro p hp hn
      exact e6 p (hfree' p hp (hn x (by simp))) fun e he => hn e (List.mem_cons_of_mem _ he)
    · intro p pre e post hp heq hpe hpre
      cases pre with
      | nil =>
        simp only [List.nil_append, List.cons.injEq] at heq
        obtain ⟨rfl, rfl⟩ := heq
        exact e5 p _ (hfree p hp hpe)
      | cons y pre =>
        simp only [List.cons_append, List.cons.injEq] at heq
        obtain ⟨rfl, rfl⟩ := heq
        exact e7 p pre e post (hfree' p hp (hpre x (by simp))) rfl hpe fun f hf => hpre f (List.mem_cons_of_mem _ hf)
end

section
variable {I K V : Type} [PointType I] [IntervalType I K] [LawfulPoint I] [LawfulInterval I K]
open ZosditMap

omit [LawfulPoint I] [LawfulInterval I K] in
theorem zeroOverlap_same {a b k : K} (ha : Valid a) (hab : SameInterval a b) : ZeroOverlap a k ↔ ZeroOverlap b k := by
  have h1 : start a = start b ∧ stop a = stop b := by
    obtain ⟨p, hp⟩ := id ha
    have hb : Valid b := ⟨p, (hab p).1 hp⟩
    have ha' := valid_iff.1 ha
    have hb' := valid_iff.1 hb
    have c1 := (hab (start a)).1 ⟨le_refl _, ha'⟩
    have c2 := (hab (stop a)).1 ⟨ha', le_refl _⟩
    have c3 := (hab (start b)).2 ⟨le_refl _, hb'⟩
    have c4 := (hab (stop b)).2 ⟨hb', le_refl _⟩
    exact ⟨le_antisymm c3.1 c1.1, le_antisymm c2.2 c4.2⟩
  simp only [ZeroOverlap, Mem, h1.1, h1.2]

/-- **C114**: in a sequence of `insert_strict_back` calls on a `ZosditMap` a call with a valid interval is accepted exactly if its interval
zero-overlaps all entries that were there before and all intervals accepted before it; the entries number what was there and what was
accepted. -/
theorem C114_zosdit_inserts (ops : List (ZOp I K V)) (es : List ((K × V) × Nat)) :
    ∃ m' outs, (after ops).run (es.map fun e => (.insertStrictBack e.1.1 e.1.2 e.2 : ZOp I K V)) = (m', outs) ∧ outs.length = es.length ∧
      m'.iter.length = (after ops).iter.length + (outs.filter fun o => match o with | .ok (.strict (.ok ())) => true | _ => false).length ∧
      ∀ (i : Nat) (e : (K × V) × Nat), es[i]? = some e →
        (¬ Valid e.1.1 → outs[i]? = some (.error .invalidInterval)) ∧
        (Valid e.1.1 →
          (outs[i]? = some (.ok (.strict (.ok ()))) ↔ (∀ d ∈ (after ops).iter, ZeroOverlap d.1 e.1.1) ∧
            ∀ (j : Nat) (d : (K × V) × Nat), j < i → es[j]? = some d → outs[j]? = some (.ok (.strict (.ok ()))) → ZeroOverlap d.1.1 e.1.1) ∧
          (outs[i]? ≠ some (.ok (.strict (.ok ()))) → outs[i]? = some (.ok (.strict (.error e.1.2))))) := by
  suffices H : ∀ m : ZosditMap K V, Good m → ∃ m' outs, m.run (es.map fun e => (.insertStrictBack e.1.1 e.1.2 e.2 : ZOp I K V)) = (m', outs) ∧
      outs.length = es.length ∧
      m'.iter.length = m.iter.length + (outs.filter fun o => match o with | .ok (.strict (.ok ())) => true | _ => false).length ∧
      ∀ (i : Nat) (e : (K × V) × Nat), es[i]? = some e →
        (¬ Valid e.1.1 → outs[i]? = some (.error .invalidInterval)) ∧
        (Valid e.1.1 →
          (outs[i]? = some (.ok (.strict (.ok ()))) ↔ (∀ d ∈ m.iter, ZeroOverlap d.1 e.1.1) ∧
            ∀ (j : Nat) (d : (K × V) × Nat), j < i → es[j]? = some d → outs[j]? = some (.ok (.strict (.ok ()))) → ZeroOverlap d.1.1 e.1.1) ∧
          (outs[i]? ≠ some (.ok (.strict (.ok ()))) → outs[i]? = some (.ok (.strict (.error e.1.2))))) from H _ (good_after ops)
  induction es with
  | nil => exact fun m _ => ⟨m, [], rfl, rfl, by simp, by simp⟩
  | cons x es ih =>
    intro m h
    obtain ⟨⟨k, v⟩, pick⟩ := x
    simp only [List.map_cons, run]
    by_cases hk : Valid k
    · rcases insert_exact h hk v pick with ⟨ho, h1⟩ | ⟨ho, m1, h1, h2, -, -, l1, k', l2, a1, a2, a3, -⟩
      · obtain ⟨m', outs, e1, e2, e3, e4⟩ := ih m h
        refine ⟨m', .ok (.strict (.error v)) :: outs, ?_, by simp [e2], ?_, fun i e hi => ?_⟩
        · simp only [step, h1, bind, Except.bind, pure, Except.pure, errValue, e1]
        · rw [e3]; simp
        · cases i with
          | zero =>
            simp only [List.getElem?_cons_zero, Option.some.injEq] at hi ⊢
            subst hi
            refine ⟨fun hn => absurd hk hn, fun _ => ⟨⟨fun hc => (nomatch hc), fun hc => ?_⟩, fun _ => rfl⟩⟩
            obtain ⟨d, hd, hdo⟩ := ho
            exact absurd (hc.1 d hd) hdo
          | succ i =>
            simp only [List.getElem?_cons_succ] at hi ⊢
            obtain ⟨f1, f2⟩ := e4 i e hi
            refine ⟨f1, fun hv => ⟨(f2 hv).1.trans (and_congr_right fun _ => ?_), (f2 hv).2⟩⟩
            constructor
            · intro hj j d hji hd hjo
              cases j with
              | zero => simp at hjo
              | succ j => exact hj j d (by omega) (by simpa using hd) (by simpa using hjo)
            · intro hj j d hji hd hjo
              exact hj (j + 1) d (by omega) (by simpa using hd) (by simpa using hjo)
      · obtain ⟨m', outs, e1, e2, e3, e4⟩ := ih m1 h2
        have hmem : ∀ d, d ∈ m1.iter ↔ d ∈ m.iter ∨ d = (k', v) := by
          intro d; rw [a1, a2]; simp only [List.mem_append, List.mem_cons]; tauto
        have hk'v : Valid k' := by obtain ⟨p, hp⟩ := hk; exact ⟨p, (a3 p).2 hp⟩
        refine ⟨m', .ok (.strict (.ok ())) :: outs, ?_, by simp [e2], ?_, fun i e hi => ?_⟩
        · simp only [step, h1, bind, Except.bind, pure, Except.pure, errValue, e1]
        · have b1 := congrArg List.length a1
          have b2 := congrArg List.length a2
          simp only [List.length_append, List.length_cons] at b1 b2
          simp only [List.filter_cons, if_true, List.length_cons]
          omega
        · cases i with
          | zero =>
            simp only [List.getElem?_cons_zero, Option.some.injEq] at hi ⊢
            subst hi
            exact ⟨fun hn => absurd hk hn, fun _ => ⟨⟨fun _ => ⟨ho, fun j _ hj => absurd hj (Nat.not_lt_zero j)⟩, fun _ => trivial⟩, fun hc => absurd rfl hc⟩⟩
          | succ i =>
            simp only [List.getElem?_cons_succ] at hi ⊢
            obtain ⟨f1, f2⟩ := e4 i e hi
            refine ⟨f1, fun hv => ⟨(f2 hv).1.trans ?_, (f2 hv).2⟩⟩
            constructor
            · rintro ⟨hm, hj⟩
              refine ⟨fun d hd => hm d ((hmem d).2 (Or.inl hd)), fun j d hji hd hjo => ?_⟩
              cases j with
              | zero =>
                simp only [List.getElem?_cons_zero, Option.some.injEq] at hd
                subst hd
                exact (zeroOverlap_same hk'v a3).1 (hm _ ((hmem (k', v)).2 (Or.inr rfl)))
              | succ j => exact hj j d (by omega) (by simpa using hd) (by simpa using hjo)
            · rintro ⟨hm, hj⟩
              refine ⟨fun d hd => ?_, fun j d hji hd hjo => hj (j + 1) d (by omega) (by simpa using hd) (by simpa using hjo)⟩
              rcases (hmem d).1 hd with hd | rfl
              · exact hm d hd
              · exact (zeroOverlap_same hk'v a3).2 (hj 0 ((k, v), pick) (by omega) (by simp) (by simp))
    · obtain ⟨m', outs, e1, e2, e3, e4⟩ := ih m h
      have hp : m.insertStrictBack k v pick = .error .invalidInterval := by
        unfold insertStrictBack; rw [NoditMap.bad_invalid hk]; rfl
      refine ⟨m', .error .invalidInterval :: outs, ?_, by simp [e2], ?_, fun i e hi => ?_⟩
      · simp only [step, hp, bind, Except.bind, e1]
      · rw [e3]; simp
      · cases i with
        | zero =>
          simp only [List.getElem?_cons_zero, Option.some.injEq] at hi ⊢
          subst hi
          exact ⟨fun _ => trivial, fun hv => absurd hv hk⟩
        | succ i =>
          simp only [List.getElem?_cons_succ] at hi ⊢
          obtain ⟨f1, f2⟩ := e4 i e hi
          refine ⟨f1, fun hv => ⟨(f2 hv).1.trans (and_congr_right fun _ => ?_), (f2 hv).2⟩⟩
          constructor
          · intro hj j d hji hd hjo
            cases j with
            | zero => simp at hjo
            | succ j => exact hj j d (by omega) (by simpa using hd) (by simpa using hjo)
          · intro hj j d hji hd hjo
            exact hj (j + 1) d (by omega) (by simpa using hd) (by simpa using hjo)
end

namespace Demo
example : ((NoditMap.new : NoditMap (Interval U8) Nat).run [.insertStrict (iv 5 9) 1, .insertStrict (iv 8 12) 2, .insertStrict (iv 9 3) 3,
    .insertStrict (iv 10 14) 4]).2 = [.ok (.strict (.ok ())), .ok (.strict (.error 2)), .error .invalidInterval, .ok (.strict (.ok ()))] := rfl
example := C114_strict_inserts (V := Nat) (C01_invariant ops) [(iv 5 9, 1), (iv 8 12, 2), (iv 9 3, 3), (iv 21 30, 4)]
example := C114_fill (V := Nat) (C01_invariant ops) [(iv 2 9, 1), (iv 8 30, 2)] (by
  simp only [List.forall_mem_cons, valid_iff]; decide)
example : ∃ m', fillLoop (I := U8) (NoditMap.new : NoditMap (Interval U8) Nat) [(iv 2 9, 1), (iv 20 30, 2), (iv 0 40, 3)] = .ok (.ok m') ∧
    m'.iter = [(iv 0 1, 3), (iv 2 9, 1), (iv 10 19, 3), (iv 20 30, 2), (iv 31 40, 3)] := ⟨_, rfl, by decide⟩
example := C114_zosdit_inserts (V := Nat) zops [((iv 5 5, 1), 0), ((iv 5 5, 2), 0), ((iv 4 9, 3), 1)]
end Demo
end Nodit
