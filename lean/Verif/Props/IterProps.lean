import Verif.Lemmas.Iter
import Verif.Lemmas.GqditGaps
import Verif.Props.ZosditProps
import Verif.Props.GqditProps
/-!
# C83, C84: iterators, call by call

`It.Yields`, `It.YieldsBothEnds`, `It.takeEnds` and `It.updateEnds` are defined in `Verif/IterSpec.lean`.
-/
set_option linter.unusedSectionVars false
namespace Nodit
open Spec PointType It

/-! ## The reference for double-ended iteration -/

/-- **C83**: whatever the calls, each element is returned at most once, from the front in ascending and from the back in
descending order: the front's elements, then what is left, then the back's in reverse make up the list. -/
theorem C83_each_element_once {σ α : Type} {it : DoubleEnded σ α} {s s' : σ} {l : List α} (h : YieldsBothEnds it s l)
    {tr : List (End × Res (Option α))} (hc : Calls it s tr s') :
    ∃ rest, l = returned .front tr ++ rest ++ (returned .back tr).reverse ∧
      (∀ n < tr.length, tr[n]?.map Prod.snd = some (.ok none) → rest = []) := by
  have h1 := (h (tr.map Prod.fst)).2 tr s' rfl hc
  clear hc h
  induction tr generalizing l with
  | nil => exact ⟨l, by simp [returned], by simp⟩
  | cons x tr ih =>
    obtain ⟨e, r⟩ := x
    cases e with
    | front =>
      simp only [List.map_cons, takeEnds, List.cons.injEq] at h1
      obtain ⟨rest, hr, hn⟩ := ih h1.2
      obtain ⟨rfl, -⟩ := h1
      cases l with
      | nil =>
        simp only [List.tail_nil, List.nil_eq, List.append_eq_nil_iff, List.reverse_eq_nil_iff] at hr
        obtain ⟨⟨h2, rfl⟩, h3⟩ := hr
        exact ⟨[], by simp [returned, h2, h3], fun _ _ _ => rfl⟩
      | cons a l =>
        refine ⟨rest, ?_, ?_⟩
        · simp only [List.tail_cons] at hr
          simp [returned, ← hr]
        · intro n hn1 hn2
          cases n with
          | zero => simp at hn2
          | succ n => exact hn n (by simpa using hn1) (by simpa using hn2)
    | back =>
      simp only [List.map_cons, takeEnds, List.cons.injEq] at h1
      obtain ⟨rest, hr, hn⟩ := ih h1.2
      obtain ⟨rfl, -⟩ := h1
      rcases List.eq_nil_or_concat l with rfl | ⟨l, a, rfl⟩
      · simp only [List.dropLast_nil, List.nil_eq, List.append_eq_nil_iff, List.reverse_eq_nil_iff] at hr
        obtain ⟨⟨h2, rfl⟩, h3⟩ := hr
        exact ⟨[], by simp [returned, h2, h3], fun _ _ _ => rfl⟩
      · rw [List.concat_eq_append] at *
        refine ⟨rest, ?_, ?_⟩
        · simp only [List.dropLast_concat] at hr
          simp [returned, List.getLast?_concat, hr]
        · intro n hn1 hn2
          cases n with
          | zero => simp [List.getLast?_concat] at hn2
          | succ n => exact hn n (by simpa using hn1) (by simpa using hn2)

section
variable {I K Q V : Type} [PointType I] [IntervalType I K] [IntervalType I Q]

theorem mkIter_left (l : List (K × V)) : (mkIter l).lo + (mkIter l).length = (mkIter l).hi ∧
    (mkIter l).hi ≤ (mkIter l).entries.length ∧ ((mkIter l).entries.take (mkIter l).hi).drop (mkIter l).lo = l := by
  simp [mkIter]

theorem forall₂_ok {α β : Type} {f : α → β} (l : List α) :
    List.Forall₂ (fun a b => (Except.ok (f a) : Res β) = .ok b) l (l.map f) := by
  induction l with
  | nil => exact .nil
  | cons a l ih => exact .cons rfl ih

/-- **C83**, `NoditMap::iter()` and `into_iter()`: any sequence of `next()` and `next_back()` calls takes the entries from the
two ends of the ascending list of entries. -/
theorem C83_map_iter (m : NoditMap K V) : YieldsBothEnds It.iter m.iterStart m.iter :=
  sim_iter.yields (mkIter_left m.inner)

theorem overlappingStart_of {m : NoditMap K V} {q : Q} {out : List (K × V)} (h : m.overlapping q = .ok out) :
    ∃ s, m.overlappingStart q = .ok s ∧ s.entries = m.inner ∧ s.lo ≤ s.hi ∧ s.hi ≤ s.entries.length ∧
      (s.entries.take s.hi).drop s.lo = out := by
  unfold NoditMap.overlapping at h
  unfold NoditMap.overlappingStart
  cases hp : invalidIntervalPanic q with
  | error p => rw [hp] at h; cases h
  | ok u =>
    rw [hp] at h
    cases h
    exact ⟨_, rfl, rfl, mkRange_left _ _ m.inner⟩

theorem overlappingStart_error {m : NoditMap K V} {q : Q} {p : Panic} (h : m.overlapping q = .error p) :
    m.overlappingStart q = .error p := by
  unfold NoditMap.overlapping at h
  unfold NoditMap.overlappingStart
  cases hp : invalidIntervalPanic q with
  | error p' => rw [hp] at h; cases h; rfl
  | ok u => rw [hp] at h; cases h

/-- **C83**, `NoditMap::overlapping(q)`: any sequence of `next()` and `next_back()` calls takes the entries sharing a point
with `q` from the two ends of their ascending list. -/
theorem C83_map_overlapping [LawfulPoint I] {m : NoditMap K V} (h : WF m.iter) {q : Q} (hq : Valid q) :
    ∃ s out, m.overlappingStart q = .ok s ∧ YieldsBothEnds It.range s out ∧ WF out ∧
      ∀ e, e ∈ out ↔ e ∈ m.iter ∧ Overlap e.1 q := by
  obtain ⟨out, ho, h1, h2⟩ := NoditMap.spec_overlapping h hq
  obtain ⟨s, hs, -, hr⟩ := overlappingStart_of ho
  exact ⟨s, out, hs, sim_range.yields hr, h1, h2⟩

/-- **C83**, `NoditSet::iter()`, `into_iter()` -/
theorem C83_set_iter (s : NoditSet K) : YieldsBothEnds NoditSet.iterIt s.iterStart s.iter :=
  (sim2_map sim_iter).yields ⟨_, mkIter_left s.inner.inner, forall₂_ok _⟩

/-- **C83**, `NoditSet::overlapping(q)` -/
theorem C83_set_overlapping [LawfulPoint I] {s : NoditSet K} (h : Ascending s.iter) {q : Q} (hq : Valid q) :
    ∃ st out, s.overlappingStart q = .ok st ∧ YieldsBothEnds NoditSet.overlappingIt st out ∧ Ascending out ∧
      ∀ k, k ∈ out ↔ k ∈ s.iter ∧ Overlap k q := by
  have hw : WF s.inner.iter := by
    obtain ⟨h1, h2⟩ := h
    exact ⟨fun e he => h1 _ (List.mem_map.2 ⟨e, he, rfl⟩), List.pairwise_map.1 h2⟩
  obtain ⟨out, ho, h1, h2⟩ := NoditMap.spec_overlapping hw hq
  obtain ⟨st, hs, -, hr⟩ := overlappingStart_of ho
  refine ⟨st, out.map Prod.fst, hs, (sim2_map sim_range).yields ⟨_, hr, forall₂_ok _⟩, ⟨?_, ?_⟩, ?_⟩
  · intro k hk
    obtain ⟨e, he, rfl⟩ := List.mem_map.1 hk
    exact h1.1 e he
  · exact List.pairwise_map.2 h1.2
  · intro k
    simp only [List.mem_map, NoditSet.iter]
    constructor
    · rintro ⟨e, he, rfl⟩
      exact ⟨⟨e, ((h2 e).1 he).1, rfl⟩, ((h2 e).1 he).2⟩
    · rintro ⟨⟨e, he, rfl⟩, ho⟩
      exact ⟨e, (h2 e).2 ⟨he, ho⟩, rfl⟩

theorem forall₂_stores (l : List (K × List V)) :
    List.Forall₂ (fun a b => ZosditMap.stores a = .ok b) l (l.map fun e => e.2.map fun v => (e.1, v)) := by
  induction l with
  | nil => exact .nil
  | cons a l ih => exact .cons rfl ih

theorem forall₂_eq {α : Type} (l : List α) : List.Forall₂ (fun a b => a = b) l l := by
  induction l with
  | nil => exact .nil
  | cons a l ih => exact .cons rfl ih

/-- **C83**, `ZosditMap::iter()`: any sequence of `next()` and `next_back()` calls takes the entries from the two ends of the
ascending list of entries, values of the same interval in insertion order. -/
theorem C83_zosdit_iter (m : ZosditMap K V) : YieldsBothEnds ZosditMap.iterIt m.iterStart m.iter := by
  apply (sim2_flatMap (sim2_map sim_iter) sim_slice).yields
  exact ⟨[], _, _, [], rfl, ⟨_, mkIter_left m.inner, forall₂_stores _⟩, forall₂_eq _, rfl, by
    simp [ZosditMap.iter, ZosditMap.flatten, List.flatMap]⟩

/-- **C83**, `ZosditMap::into_iter()` -/
theorem C83_zosdit_into_iter (m : ZosditMap K V) : Yields ZosditMap.intoIterIt m.iterStart m.iter := by
  apply (sim2_flatMap (sim2_map sim_iter) sim_slice).next.yields
  exact ⟨[], _, _, [], rfl, ⟨_, mkIter_left m.inner, forall₂_stores _⟩, forall₂_eq _, rfl, by
    simp [ZosditMap.iter, ZosditMap.flatten, List.flatMap]⟩

open Classical in
/-- **C83**, `ZosditMap::overlapping(q)` after any history of calls -/
theorem C83_zosdit_overlapping [LawfulPoint I] [LawfulInterval I K] (ops : List (ZOp I K V)) {q : Q} (hq : Valid q) :
    ∃ s, (ZosditMap.after ops).overlappingStart q = .ok s ∧
      Yields ZosditMap.overlappingIt.next s ((ZosditMap.after ops).iter.filter (fun e => Overlap e.1 q)) := by
  have ho := C44_overlapping ops hq
  unfold ZosditMap.overlapping at ho
  unfold ZosditMap.overlappingStart
  rw [invalidIntervalPanic_ok (valid_iff.1 hq)] at ho ⊢
  refine ⟨_, rfl, (sim2_flatMap (sim2_map sim_range) sim_slice).next.yields ?_⟩
  refine ⟨[], _, _, [], rfl, ⟨_, mkRange_left _ _ _, forall₂_stores _⟩, forall₂_eq _, rfl, ?_⟩
  injection ho with ho
  rw [← ho]
  simp [ZosditMap.flatten, List.flatMap]

/-! ## Mutable iteration -/

/-- what the mutable iterators do to the entries, given how a state with `l` left between `pre` and `post` steps -/
theorem mut_run {σ : Type} {it : (K → V → V) → DoubleEnded σ (K × V)} {E : σ → List (K × V)}
    (R : σ → List (K × V) → List (K × V) → List (K × V) → Prop) (hE : ∀ {s pre l post}, R s pre l post → E s = pre ++ l ++ post)
    (hnil : ∀ {f e s pre post}, R s pre [] post → ∃ s', Det ((it f).method e) s (.ok none) s' ∧ R s' pre [] post)
    (hfront : ∀ {f s pre x l post}, R s pre (x :: l) post →
      ∃ s', Det (it f).next s (.ok (some x)) s' ∧ R s' (pre ++ [(x.1, f x.1 x.2)]) l post)
    (hback : ∀ {f s pre x l post}, R s pre (l ++ [x]) post →
      ∃ s', Det (it f).nextBack s (.ok (some x)) s' ∧ R s' pre l ((x.1, f x.1 x.2) :: post))
    (es : List (End × (K → V → V))) {s : σ} {pre l post} (h : R s pre l post) :
    (∃ tr s', tr.map Prod.fst = es ∧ CallsMut it s tr s') ∧
      ∀ tr s', tr.map Prod.fst = es → CallsMut it s tr s' →
        tr.map Prod.snd = (takeEnds l (es.map Prod.fst)).map .ok ∧ E s' = pre ++ updateEnds l es ++ post := by
  induction es generalizing s pre l post with
  | nil =>
    refine ⟨⟨[], s, rfl, .nil⟩, fun tr s' ht hc => ?_⟩
    rw [List.map_eq_nil_iff] at ht; subst ht
    cases hc
    exact ⟨rfl, by rw [hE h]; cases l <;> rfl⟩
  | cons x es ih =>
    obtain ⟨e, f⟩ := x
    -- one step, uniformly
    obtain ⟨r, s1, pre1, l1, post1, hd, h1, hr, ht, hu⟩ : ∃ r s1 pre1 l1 post1, Det ((it f).method e) s (.ok r) s1 ∧
        R s1 pre1 l1 post1 ∧ (takeEnds l (e :: es.map Prod.fst) = r :: takeEnds l1 (es.map Prod.fst)) ∧
        (pre1 ++ updateEnds l1 es ++ post1 = pre ++ updateEnds l ((e, f) :: es) ++ post) ∧ True := by
      cases e with
      | front =>
        cases l with
        | nil =>
          obtain ⟨s1, hd, h1⟩ := hnil (f := f) (e := .front) h
          exact ⟨_, s1, pre, [], post, hd, h1, rfl, by cases es <;> simp [updateEnds], trivial⟩
        | cons x l =>
          obtain ⟨s1, hd, h1⟩ := hfront (f := f) h
          exact ⟨_, s1, _, l, post, hd, h1, rfl, by simp [updateEnds], trivial⟩
      | back =>
        rcases List.eq_nil_or_concat l with rfl | ⟨l, x, rfl⟩
        · obtain ⟨s1, hd, h1⟩ := hnil (f := f) (e := .back) h
          exact ⟨_, s1, pre, [], post, hd, h1, rfl, by cases es <;> simp [updateEnds], trivial⟩
        · rw [List.concat_eq_append] at h ⊢
          obtain ⟨s1, hd, h1⟩ := hback (f := f) h
          refine ⟨_, s1, pre, l, _, hd, h1, by simp [takeEnds], ?_, trivial⟩
          have : updateEnds (l ++ [x]) ((.back, f) :: es) = updateEnds l es ++ [(x.1, f x.1 x.2)] := by
            have hd : (l ++ [x]).dropLast = l := by simp
            cases hl : l ++ [x] with
            | nil => simp at hl
            | cons y ys =>
              rw [updateEnds]
              have h3 : (y :: ys).dropLast = l := by rw [← hl, hd]
              have h4 : ∀ hne, (y :: ys).getLast hne = x := by rw [← hl]; simp
              rw [h3, h4]
          rw [this]; simp
    obtain ⟨⟨tr, s2, htr, hc⟩, hall⟩ := ih h1
    refine ⟨⟨((e, f), _) :: tr, s2, by simp [htr], .cons hd.1 hc⟩, fun tr s' ht1 hc => ?_⟩
    cases hc with
    | nil => simp at ht1
    | cons g1 g2 =>
      simp only [List.map_cons, List.cons.injEq, Prod.mk.injEq] at ht1
      obtain ⟨⟨rfl, rfl⟩, ht1⟩ := ht1
      obtain ⟨rfl, rfl⟩ := hd.2 _ _ g1
      obtain ⟨h5, h6⟩ := hall _ _ ht1 g2
      simp only [List.map_cons] at hr ⊢
      rw [hr, h5, h6, ht]
      exact ⟨rfl, rfl⟩

theorem modify_mid {α : Type} (pre : List α) (x : α) (l : List α) (g : α → α) :
    (pre ++ x :: l).modify pre.length g = pre ++ g x :: l := by
  induction pre with
  | nil => rfl
  | cons a pre ih => simp [List.modify_succ_cons, ih]

theorem iterMut_run (es : List (End × (K → V → V))) {s : It.Iter K V} {pre l post}
    (h : s.entries = pre ++ l ++ post ∧ s.lo = pre.length ∧ s.hi = pre.length + l.length ∧ s.length = l.length) :
    (∃ tr s', tr.map Prod.fst = es ∧ CallsMut It.iterMut s tr s') ∧
      ∀ tr s', tr.map Prod.fst = es → CallsMut It.iterMut s tr s' →
        tr.map Prod.snd = (takeEnds l (es.map Prod.fst)).map .ok ∧ s'.entries = pre ++ updateEnds l es ++ post := by
  refine mut_run (E := It.Iter.entries) (fun s pre l post => s.entries = pre ++ l ++ post ∧ s.lo = pre.length ∧
    s.hi = pre.length + l.length ∧ s.length = l.length) (fun h => h.1) ?_ ?_ ?_ es h
  · rintro f (_ | _) s pre post ⟨h1, h2, h3, h4⟩
    · refine ⟨s, ?_, h1, h2, h3, h4⟩
      have := Det.ofFun (fun s : It.Iter K V => if s.length = 0 then ((none : Option (K × V)), s)
        else (s.entries[s.lo]?,
          { s with entries := s.entries.modify s.lo (fun e => (e.1, f e.1 e.2)), lo := s.lo + 1, length := s.length - 1 })) s
      rw [if_pos (by simp [h4])] at this
      exact this
    · refine ⟨s, ?_, h1, h2, h3, h4⟩
      have := Det.ofFun (fun s : It.Iter K V => if s.length = 0 then ((none : Option (K × V)), s)
        else (s.entries[s.hi - 1]?,
          { s with entries := s.entries.modify (s.hi - 1) (fun e => (e.1, f e.1 e.2)), hi := s.hi - 1, length := s.length - 1 })) s
      rw [if_pos (by simp [h4])] at this
      exact this
  · rintro f s pre x l post ⟨h1, h2, h3, h4⟩
    refine ⟨{ s with entries := s.entries.modify s.lo (fun e => (e.1, f e.1 e.2)), lo := s.lo + 1, length := s.length - 1 },
      ?_, ?_, ?_, ?_, ?_⟩
    · have := Det.ofFun (fun s : It.Iter K V => if s.length = 0 then ((none : Option (K × V)), s)
        else (s.entries[s.lo]?,
          { s with entries := s.entries.modify s.lo (fun e => (e.1, f e.1 e.2)), lo := s.lo + 1, length := s.length - 1 })) s
      rw [if_neg (by simp [h4])] at this
      have he : s.entries[s.lo]? = some x := by rw [h1, h2]; simp
      rw [he] at this
      exact this
    · show s.entries.modify s.lo _ = _
      simp only [h1, h2, List.append_assoc, List.cons_append, modify_mid, List.nil_append]
    · simp [h2]
    · simp [h3]; omega
    · simp [h4]
  · rintro f s pre x l post ⟨h1, h2, h3, h4⟩
    have hhi : s.hi - 1 = (pre ++ l).length := by simp [h3]
    have h1' : s.entries = (pre ++ l) ++ x :: post := by rw [h1]; simp
    refine ⟨{ s with entries := s.entries.modify (s.hi - 1) (fun e => (e.1, f e.1 e.2)), hi := s.hi - 1, length := s.length - 1 },
      ?_, ?_, ?_, ?_, ?_⟩
    · have := Det.ofFun (fun s : It.Iter K V => if s.length = 0 then ((none : Option (K × V)), s)
        else (s.entries[s.hi - 1]?,
          { s with entries := s.entries.modify (s.hi - 1) (fun e => (e.1, f e.1 e.2)), hi := s.hi - 1, length := s.length - 1 })) s
      rw [if_neg (by simp [h4])] at this
      have he : s.entries[s.hi - 1]? = some x := by rw [h1', hhi]; simp
      rw [he] at this
      exact this
    · show s.entries.modify (s.hi - 1) _ = _
      rw [h1', hhi, modify_mid]
    · exact h2
    · show s.hi - 1 = _; rw [hhi]; simp
    · simp [h4]

theorem rangeMut_run (es : List (End × (K → V → V))) {s : It.Range K V} {pre l post}
    (h : s.entries = pre ++ l ++ post ∧ s.lo = pre.length ∧ s.hi = pre.length + l.length) :
    (∃ tr s', tr.map Prod.fst = es ∧ CallsMut It.rangeMut s tr s') ∧
      ∀ tr s', tr.map Prod.fst = es → CallsMut It.rangeMut s tr s' →
        tr.map Prod.snd = (takeEnds l (es.map Prod.fst)).map .ok ∧ s'.entries = pre ++ updateEnds l es ++ post := by
  refine mut_run (E := It.Range.entries) (fun s pre l post => s.entries = pre ++ l ++ post ∧ s.lo = pre.length ∧
    s.hi = pre.length + l.length) (fun h => h.1) ?_ ?_ ?_ es h
  · rintro f (_ | _) s pre post ⟨h1, h2, h3⟩
    · refine ⟨s, ?_, h1, h2, h3⟩
      have := Det.ofFun (fun s : It.Range K V => if s.lo = s.hi then ((none : Option (K × V)), s)
        else (s.entries[s.lo]?, { s with entries := s.entries.modify s.lo (fun e => (e.1, f e.1 e.2)), lo := s.lo + 1 })) s
      rw [if_pos (by simp [h2, h3])] at this
      exact this
    · refine ⟨s, ?_, h1, h2, h3⟩
      have := Det.ofFun (fun s : It.Range K V => if s.lo = s.hi then ((none : Option (K × V)), s)
        else (s.entries[s.hi - 1]?, { s with entries := s.entries.modify (s.hi - 1) (fun e => (e.1, f e.1 e.2)), hi := s.hi - 1 })) s
      rw [if_pos (by simp [h2, h3])] at this
      exact this
  · rintro f s pre x l post ⟨h1, h2, h3⟩
    refine ⟨{ s with entries := s.entries.modify s.lo (fun e => (e.1, f e.1 e.2)), lo := s.lo + 1 }, ?_, ?_, ?_, ?_⟩
    · have := Det.ofFun (fun s : It.Range K V => if s.lo = s.hi then ((none : Option (K × V)), s)
        else (s.entries[s.lo]?, { s with entries := s.entries.modify s.lo (fun e => (e.1, f e.1 e.2)), lo := s.lo + 1 })) s
      rw [if_neg (by simp [h2, h3])] at this
      have he : s.entries[s.lo]? = some x := by rw [h1, h2]; simp
      rw [he] at this
      exact this
    · show s.entries.modify s.lo _ = _
      simp only [h1, h2, List.append_assoc, List.cons_append, modify_mid, List.nil_append]
    · simp [h2]
    · simp [h3]; omega
  · rintro f s pre x l post ⟨h1, h2, h3⟩
    have hhi : s.hi - 1 = (pre ++ l).length := by simp [h3]
    have h1' : s.entries = (pre ++ l) ++ x :: post := by rw [h1]; simp
    refine ⟨{ s with entries := s.entries.modify (s.hi - 1) (fun e => (e.1, f e.1 e.2)), hi := s.hi - 1 }, ?_, ?_, ?_, ?_⟩
    · have := Det.ofFun (fun s : It.Range K V => if s.lo = s.hi then ((none : Option (K × V)), s)
        else (s.entries[s.hi - 1]?, { s with entries := s.entries.modify (s.hi - 1) (fun e => (e.1, f e.1 e.2)), hi := s.hi - 1 })) s
      rw [if_neg (by simp [h2, h3])] at this
      have he : s.entries[s.hi - 1]? = some x := by rw [h1', hhi]; simp
      rw [he] at this
      exact this
    · show s.entries.modify (s.hi - 1) _ = _
      rw [h1', hhi, modify_mid]
    · exact h2
    · show s.hi - 1 = _; rw [hhi]; simp

/-- **C83**, `NoditMap::iter_mut()`: any sequence of `next()` and `next_back()` calls yields the entries from the two ends;
what the caller does to the values changes exactly the values of the entries yielded. -/
theorem C83_map_iter_mut (m : NoditMap K V) (es : List (End × (K → V → V))) :
    (∃ tr s', tr.map Prod.fst = es ∧ CallsMut It.iterMut m.iterStart tr s') ∧
    ∀ tr s', tr.map Prod.fst = es → CallsMut It.iterMut m.iterStart tr s' →
      tr.map Prod.snd = (takeEnds m.iter (es.map Prod.fst)).map .ok ∧ s'.entries = updateEnds m.iter es := by
  have := iterMut_run es (s := m.iterStart) (pre := []) (l := m.iter) (post := [])
    (by simp [NoditMap.iterStart, mkIter, NoditMap.iter])
  simpa using this

/-- **C83**, `NoditMap::overlapping_mut(q)`: likewise for the entries sharing a point with `q`; the entries below and above
stay as they are. -/
theorem C83_map_overlapping_mut [LawfulPoint I] {m : NoditMap K V} (h : WF m.iter) {q : Q} (hq : Valid q)
    (es : List (End × (K → V → V))) :
    ∃ s below out above, m.overlappingStart q = .ok s ∧ m.iter = below ++ out ++ above ∧
      (∀ e ∈ out, Overlap e.1 q) ∧ (∀ e ∈ below ++ above, ¬ Overlap e.1 q) ∧
      (∃ tr s', tr.map Prod.fst = es ∧ CallsMut It.rangeMut s tr s') ∧
      ∀ tr s', tr.map Prod.fst = es → CallsMut It.rangeMut s tr s' →
        tr.map Prod.snd = (takeEnds out (es.map Prod.fst)).map .ok ∧ s'.entries = below ++ updateEnds out es ++ above := by
  obtain ⟨out, ho, h1, h2⟩ := NoditMap.spec_overlapping h hq
  obtain ⟨s, hs, he, hlo, hhi, hr⟩ := overlappingStart_of ho
  have hsplit : m.iter = m.iter.take s.lo ++ out ++ m.iter.drop s.hi := by
    have e1 : m.iter = s.entries := he.symm
    rw [e1, ← hr]
    conv_lhs => rw [← List.take_append_drop s.hi s.entries]
    congr 1
    conv_lhs => rw [← List.take_append_drop s.lo (s.entries.take s.hi), List.take_take, min_eq_left hlo]
  have hlen : out.length = s.hi - s.lo := by rw [← hr]; simp; omega
  refine ⟨s, m.iter.take s.lo, out, m.iter.drop s.hi, hs, hsplit, fun e he' => ((h2 e).1 he').2, ?_, ?_⟩
  · intro e hmem hov
    have hm : e ∈ m.iter := by
      rcases List.mem_append.1 hmem with hx | hx
      · exact List.mem_of_mem_take hx
      · exact List.mem_of_mem_drop hx
    have hout : e ∈ out := (h2 e).2 ⟨hm, hov⟩
    have hp := h.2
    have hv := h.1 e hm
    have irr : ¬ Before e.1 e.1 := fun hb => by
      obtain ⟨p, hp⟩ := hv; exact lt_irrefl p (hb p p hp hp)
    rw [hsplit, List.pairwise_append, List.pairwise_append] at hp
    rcases List.mem_append.1 hmem with hx | hx
    · exact irr (hp.1.2.2 e hx e hout)
    · exact irr (hp.2.2 e (List.mem_append.2 (.inr hout)) e hx)
  · exact rangeMut_run es ⟨by rw [← hsplit]; exact he, by
      rw [List.length_take, min_eq_left]; have : m.iter = s.entries := he.symm; rw [this]; omega, by
      rw [List.length_take, min_eq_left, hlen]; · omega
      have : m.iter = s.entries := he.symm; rw [this]; omega⟩

/-! ## Lazy gaps -/

theorem forall₂_of_mapM {α β : Type} {f : α → Res β} {l : List α} {l' : List β} (h : l.mapM f = .ok l') :
    List.Forall₂ (fun a b => f a = .ok b) l l' := by
  induction l generalizing l' with
  | nil => simp only [List.mapM_nil, pure, Except.pure, Except.ok.injEq] at h; subst h; exact .nil
  | cons a l ih =>
    rw [List.mapM_cons] at h
    simp only [bind, Except.bind] at h
    cases hf : f a with
    | error p => rw [hf] at h; cases h
    | ok b =>
      rw [hf] at h
      cases hm : l.mapM f with
      | error p => simp [hm] at h
      | ok bs =>
        simp only [hm, pure, Except.pure, Except.ok.injEq] at h
        subst h
        exact .cons hf (ih hm)

/-- what is left of the iterator of the gaps -/
theorem sim_gapsIt : ∃ R, Sim (NoditMap.gapsIt (I := I) (K := K) (V := V)) R ∧
    ∀ (sg : Option K) (s : It.Range K V) (eg : Option K) (out inner : List _),
      (s.lo ≤ s.hi ∧ s.hi ≤ s.entries.length ∧ (s.entries.take s.hi).drop s.lo = out) →
      NoditMap.innerGaps (I := I) out = .ok inner → R (some (some sg, s, none), eg) (sg.toList ++ inner ++ eg.toList) := by
  refine ⟨_, sim_chain (sim_chain sim_option (sim_filter (sim_map (sim_windows (sim_map sim_range.next))))) sim_option, ?_⟩
  intro sg s eg out inner hs hi
  unfold NoditMap.innerGaps at hi
  cases hm : (tupleWindows (out.map (fun e => (start e.1, stop e.1)))).mapM (NoditMap.gapBetween (K := K)) with
  | error p =>
    have : (do let gs ← (tupleWindows (out.map (fun e => (start e.1, stop e.1)))).mapM (NoditMap.gapBetween (K := K))
               pure (gs.filter (fun k => InclusiveInterval.isValid k))) = Except.ok inner := hi
    rw [hm] at this; cases this
  | ok gs =>
    have : (do let gs ← (tupleWindows (out.map (fun e => (start e.1, stop e.1)))).mapM (NoditMap.gapBetween (K := K))
               pure (gs.filter (fun k => InclusiveInterval.isValid k))) = Except.ok inner := hi
    rw [hm] at this
    cases this
    exact ⟨_, _, ⟨_, _, rfl, ⟨_, ⟨_, ⟨_, ⟨_, hs, forall₂_ok _⟩, rfl⟩, forall₂_of_mapM hm⟩, rfl⟩, rfl⟩, rfl, rfl⟩

theorem gapsUntrimmed_lazy {m : NoditMap K V} {q : Q} {out : List K} (h : m.gapsUntrimmed q = .ok out) :
    ∃ s R, m.gapsUntrimmedStart q = .ok s ∧ Sim (NoditMap.gapsIt (I := I) (K := K) (V := V)) R ∧ R s out := by
  obtain ⟨R, hR, hR'⟩ := sim_gapsIt (I := I) (K := K) (V := V)
  unfold NoditMap.gapsUntrimmed at h
  unfold NoditMap.gapsUntrimmedStart
  simp only [bind, Except.bind] at h ⊢
  cases hp : invalidIntervalPanic q with
  | error p => simp [hp] at h
  | ok u =>
  cases hs : m.gapAt (start q) with
  | error p => simp [hp, hs] at h
  | ok sg =>
  cases he : m.gapAt (stop q) with
  | error p => simp [hp, hs, he] at h
  | ok eg =>
  simp only [hp, hs, he] at h ⊢
  cases ho : m.overlapping q with
  | error p => simp [ho] at h
  | ok o =>
  obtain ⟨st, hst, -, hr⟩ := overlappingStart_of ho
  cases hi : NoditMap.innerGaps (I := I) o with
  | error p => simp [ho, hi] at h
  | ok inner =>
  simp only [ho, hi, hst, pure, Except.pure, Except.ok.injEq] at h ⊢
  subst h
  exact ⟨_, R, rfl, hR, hR' _ _ _ _ _ hr hi⟩

theorem gapsTrimmed_lazy {m : NoditMap K V} {q : Q} {out : List K} (h : m.gapsTrimmed q = .ok out) :
    ∃ s R, m.gapsTrimmedStart q = .ok s ∧ Sim (NoditMap.gapsIt (I := I) (K := K) (V := V)) R ∧ R s out := by
  obtain ⟨R, hR, hR'⟩ := sim_gapsIt (I := I) (K := K) (V := V)
  unfold NoditMap.gapsTrimmed at h
  unfold NoditMap.gapsTrimmedStart
  simp only [bind, Except.bind] at h ⊢
  cases hp : invalidIntervalPanic q with
  | error p => simp [hp] at h
  | ok u =>
  cases hs : m.gapAt (start q) with
  | error p => simp [hp, hs] at h
  | ok sg =>
  cases he : m.gapAt (stop q) with
  | error p => simp [hp, hs, he] at h
  | ok eg =>
  simp only [hp, hs, he] at h ⊢
  cases ho : m.overlapping q with
  | error p => simp [ho] at h
  | ok o =>
  obtain ⟨st, hst, -, hr⟩ := overlappingStart_of ho
  cases hi : NoditMap.innerGaps (I := I) o with
  | error p => simp [ho, hi] at h
  | ok inner =>
  simp only [ho, hi, hst, pure, Except.pure, Except.ok.injEq] at h ⊢
  subst h
  exact ⟨_, R, rfl, hR, hR' _ _ _ _ _ hr hi⟩

/-- **C84**: the lazy iterator of `gaps_untrimmed(q)` can be called any number of times without panicking; it yields the
maximal gaps sharing a point with `q`, ascending, and then `None`. -/
theorem C84_gaps_untrimmed_calls [LawfulPoint I] [LawfulInterval I K] {m : NoditMap K V} (h : WF m.iter) {q : Q}
    (hq : Valid q) :
    ∃ s out, m.gapsUntrimmedStart q = .ok s ∧ Yields (NoditMap.gapsIt (I := I)) s out ∧
      ListsIntervals out (fun i => MaximalRun (fun p => ¬ ∃ e ∈ m.iter, Mem p e.1) i ∧ Overlap i q) := by
  obtain ⟨out, ho, hl⟩ := NoditMap.spec_gapsUntrimmed h hq
  obtain ⟨s, R, hs, hR, hr⟩ := gapsUntrimmed_lazy ho
  exact ⟨s, out, hs, hR.yields hr, hl⟩

/-- **C84**: `cut(q)` and `remove_overlapping(q)` have changed the map when they return; the iterator they return yields the pieces and
the removed entries one by one, and then `None`, however often it is called. -/
theorem C84_results_one_by_one [LawfulPoint I] [LawfulInterval I K] {m : NoditMap K V} (h : WF m.iter) {q : Q} (hq : Valid q) :
    (∃ m' s, m.cut q = .ok (m', s) ∧ Yields vec s s) ∧ ∃ m' s, m.removeOverlapping q = .ok (m', s) ∧ Yields vec s s := by
  have hy : ∀ s : List (K × V), Yields vec s s := fun s => sim_vec.yields rfl
  obtain ⟨m1, s1, e1, -⟩ := NoditMap.spec_cut h hq
  obtain ⟨m2, s2, e2, -⟩ := NoditMap.spec_removeOverlapping h hq
  exact ⟨⟨m1, s1, e1, hy s1⟩, m2, s2, e2, hy s2⟩

/-- **C84**: likewise for `gaps_trimmed(q)`, whose items are the gaps' parts inside `q`. -/
theorem C84_gaps_trimmed_calls [LawfulPoint I] [LawfulInterval I K] {m : NoditMap K V} (h : WF m.iter) {q : Q}
    (hq : Valid q) :
    ∃ s out, m.gapsTrimmedStart q = .ok s ∧ Yields (NoditMap.gapsIt (I := I)) s out ∧
      ListsIntervals out (fun i => ∃ g, MaximalRun (fun p => ¬ ∃ e ∈ m.iter, Mem p e.1) g ∧
        Describes i (fun p => Mem p g ∧ Mem p q)) := by
  obtain ⟨out, ho, hl⟩ := NoditMap.spec_gapsTrimmed h hq
  obtain ⟨s, R, hs, hR, hr⟩ := gapsTrimmed_lazy ho
  exact ⟨s, out, hs, hR.yields hr, hl⟩

/-! ## Functions consuming iterators -/

theorem is_bind_ok {α β : Type} {x : Prog α} {f : α → Prog β} {a : α} {r : Res β} (h : ∀ r', x r' ↔ r' = .ok a)
    (h' : ∀ r', f a r' ↔ r' = r) : ∀ r', (x >>= f) r' ↔ r' = r := by
  intro r'
  show (∃ p, x (.error p) ∧ r' = .error p) ∨ (∃ a, x (.ok a) ∧ f a r') ↔ _
  constructor
  · rintro (⟨p, h1, -⟩ | ⟨b, h1, h2⟩)
    · exact absurd ((h _).1 h1) (by simp)
    · have := (h _).1 h1; cases this; exact (h' _).1 h2
  · intro he
    exact .inr ⟨a, (h _).2 rfl, (h' _).2 he⟩

theorem is_bind_error {α β : Type} {x : Prog α} {f : α → Prog β} {p : Panic} (h : ∀ r', x r' ↔ r' = .error p) :
    ∀ r', (x >>= f) r' ↔ r' = .error p := by
  intro r'
  show (∃ p, x (.error p) ∧ r' = .error p) ∨ (∃ a, x (.ok a) ∧ f a r') ↔ _
  constructor
  · rintro (⟨p', h1, rfl⟩ | ⟨b, h1, h2⟩)
    · have := (h _).1 h1; cases this; rfl
    · exact absurd ((h _).1 h1) (by simp)
  · rintro rfl
    exact .inl ⟨p, (h _).2 rfl, rfl⟩

theorem is_lift {α : Type} (r : Res α) : ∀ r', Prog.lift r r' ↔ r' = r := fun _ => Iff.rfl

theorem is_call {σ α : Type} {it : Method σ α} {R : σ → List α → Prop} (h : Sim it R) {s : σ} {l : List α} (hs : R s l) :
    ∀ r', Prog.call it s r' ↔ r' = .ok l.head? := by
  intro r'
  obtain ⟨s', hd, -⟩ := h.step hs
  constructor
  · rintro ⟨s1, h1⟩; exact (hd.2 _ _ h1).1
  · rintro rfl; exact ⟨s', hd.1⟩

theorem is_collect {σ α : Type} {it : Method σ α} {R : σ → List α → Prop} (h : Sim it R) {s : σ} {l : List α} (hs : R s l) :
    ∀ r', Prog.collect it s r' ↔ r' = .ok l := by
  induction l generalizing s with
  | nil =>
    obtain ⟨s', hd, -⟩ := h.nil hs
    intro r'
    constructor
    · intro hc
      cases hc with
      | done _ => rfl
      | item h1 _ => have := hd.2 _ _ h1; simp_all
      | panics h1 => have := hd.2 _ _ h1; simp_all
      | later h1 _ => have := hd.2 _ _ h1; simp_all
    · rintro rfl; exact .done hd.1
  | cons a l ih =>
    obtain ⟨s', hd, h'⟩ := h.cons hs
    have ih' := ih h'
    intro r'
    constructor
    · intro hc
      cases hc with
      | done h1 => have := hd.2 _ _ h1; simp_all
      | item h1 h2 => obtain ⟨e, rfl⟩ := hd.2 _ _ h1; cases e; have := (ih' _).1 h2; cases this; rfl
      | panics h1 => have := hd.2 _ _ h1; simp_all
      | later h1 h2 => obtain ⟨e, rfl⟩ := hd.2 _ _ h1; cases e; have := (ih' _).1 h2; cases this
    · rintro rfl; exact .item hd.1 ((ih' _).2 rfl)

/-- **C84**: `overlaps` and `contains_interval`, which ask the iterator for one item only, give what C05 and C18 say. -/
theorem C84_one_item_suffices [LawfulPoint I] [LawfulInterval I K] {m : NoditMap K V} (h : WF m.iter) (q : Q) :
    (∀ r, m.overlapsCalls q r ↔ r = m.overlaps q) ∧ (∀ r, m.containsIntervalCalls q r ↔ r = m.containsInterval q) := by
  by_cases hq : Valid q
  · have hp := invalidIntervalPanic_ok (valid_iff.1 hq)
    constructor
    · obtain ⟨out, ho, -⟩ := NoditMap.spec_overlapping h hq
      obtain ⟨s, hs, -, hr⟩ := overlappingStart_of ho
      have e : m.overlaps q = .ok out.head?.isSome := by
        unfold NoditMap.overlaps; rw [hp, ho]; rfl
      rw [e]
      unfold NoditMap.overlapsCalls
      rw [hp, hs]
      exact is_bind_ok (is_lift _) (is_bind_ok (is_lift _) (is_bind_ok (is_call sim_range.next hr) (is_lift _)))
    · obtain ⟨out, ho, -⟩ := NoditMap.spec_gapsUntrimmed h hq
      obtain ⟨s, R, hs, hR, hr⟩ := gapsUntrimmed_lazy ho
      have e : m.containsInterval q = .ok out.head?.isNone := by
        unfold NoditMap.containsInterval; rw [hp, ho]; rfl
      rw [e]
      unfold NoditMap.containsIntervalCalls
      rw [hp, hs]
      exact is_bind_ok (is_lift _) (is_bind_ok (is_lift _) (is_bind_ok (is_call hR hr) (is_lift _)))
  · have hp := invalidIntervalPanic_err (fun hh => hq (valid_iff.2 hh))
    constructor
    · unfold NoditMap.overlapsCalls NoditMap.overlaps
      rw [hp]
      exact is_bind_error (is_lift _)
    · unfold NoditMap.containsIntervalCalls NoditMap.containsInterval
      rw [hp]
      exact is_bind_error (is_lift _)
end

section
variable {I K Q D : Type} [PointType I] [IntervalType I K] [IntervalType I Q] [DecidableEq D]

theorem filterMap_fst {α β : Type} (p : α × β → Prop) [DecidablePred p] (l : List (α × β)) :
    l.filterMap (fun e => if p e then some e.1 else none) = (l.filter (fun e => p e)).map Prod.fst := by
  induction l with
  | nil => rfl
  | cons a l ih => by_cases h : p a <;> simp [List.filterMap_cons, List.filter_cons, h, ih]

theorem gapsNoIdentifier_calls {g : Gqdit K D} {q : Q} {l : List K} (h : g.gapsNoIdentifier q = .ok l) :
    ∀ r, g.gapsNoIdentifierCalls q r ↔ r = .ok l := by
  unfold Gqdit.gapsNoIdentifier at h
  unfold Gqdit.gapsNoIdentifierCalls
  simp only [bind, Except.bind] at h
  cases hp : invalidIntervalPanic q with
  | error p => simp [hp] at h
  | ok u =>
  cases ho : g.inner.overlapping q with
  | error p => simp [hp, ho] at h
  | ok o =>
  simp only [hp, ho, pure, Except.pure, Except.ok.injEq] at h
  subst h
  obtain ⟨s, hs, -, hr⟩ := overlappingStart_of ho
  rw [hs]
  exact is_bind_ok (is_lift _) (is_bind_ok (is_lift _) (is_collect (sim_filterMap sim_range.next)
    ⟨_, hr, (filterMap_fst (fun e => e.2 = ∅) o).symm⟩))

theorem expandRight_calls {g : Gqdit K D} {d : D} {p : I} {r : Option K} (h : g.expandGapsAtPointRight d p = .ok r) :
    ∀ r', g.expandRightCalls d p r' ↔ r' = .ok r := by
  unfold Gqdit.expandGapsAtPointRight at h
  unfold Gqdit.expandRightCalls
  cases hq : (iu p : Res (Interval I)) with
  | error e => rw [hq] at h; cases h
  | ok q =>
  cases ho : g.inner.overlapping q with
  | error e => rw [hq] at h; simp only [bind, Except.bind, ho] at h; cases h
  | ok o =>
  rw [hq] at h
  obtain ⟨s, hs, -, hr⟩ := overlappingStart_of ho
  change (do
    let overlappingRight ← g.inner.overlapping q
    let run := (overlappingRight.takeWhile (fun e => validIdentifier d e.2)).map Prod.fst
    let r ← coalesce (fun x y => do pure (.ok (ofInterval (← mergeOrdered x y) : K))) run
    pure r.head?) = Except.ok r at h
  rw [ho] at h
  change (do
    let r ← coalesce (fun x y => do pure (.ok (ofInterval (← mergeOrdered x y) : K)))
      ((o.takeWhile (fun e => validIdentifier d e.2)).map Prod.fst)
    pure r.head?) = Except.ok r at h
  cases hc : coalesce (fun x y => do pure (.ok (ofInterval (← mergeOrdered x y) : K)))
      ((o.takeWhile (fun e => validIdentifier d e.2)).map Prod.fst) with
  | error e => rw [hc] at h; cases h
  | ok l =>
  rw [hc] at h
  cases h
  refine is_bind_ok (is_lift _) (is_bind_ok (a := s) ?_ (is_call
    (sim_coalesce (sim_map (sim_takeWhile sim_range.next))) (l := l) ?_))
  · rw [hs]; exact is_lift _
  · exact ⟨_, ⟨_, .inr ⟨rfl, _, hr, rfl⟩, forall₂_ok _⟩, hc⟩

theorem expandLeft_calls {g : Gqdit K D} {d : D} {p : I} {r : Option K} (h : g.expandGapsAtPointLeft d p = .ok r) :
    ∀ r', g.expandLeftCalls d p r' ↔ r' = .ok r := by
  unfold Gqdit.expandGapsAtPointLeft at h
  unfold Gqdit.expandLeftCalls
  cases hq : (ui p : Res (Interval I)) with
  | error e => rw [hq] at h; cases h
  | ok q =>
  cases ho : g.inner.overlapping q with
  | error e => rw [hq] at h; simp only [bind, Except.bind, ho] at h; cases h
  | ok o =>
  rw [hq] at h
  obtain ⟨s, hs, -, hr⟩ := overlappingStart_of ho
  change (do
    let overlappingLeft ← g.inner.overlapping q
    let run := (overlappingLeft.reverse.takeWhile (fun e => validIdentifier d e.2)).map Prod.fst
    let r ← coalesce (fun x y => do pure (.ok (ofInterval (← mergeOrdered y x) : K))) run
    pure r.head?) = Except.ok r at h
  rw [ho] at h
  change (do
    let r ← coalesce (fun x y => do pure (.ok (ofInterval (← mergeOrdered y x) : K)))
      ((o.reverse.takeWhile (fun e => validIdentifier d e.2)).map Prod.fst)
    pure r.head?) = Except.ok r at h
  cases hc : coalesce (fun x y => do pure (.ok (ofInterval (← mergeOrdered y x) : K)))
      ((o.reverse.takeWhile (fun e => validIdentifier d e.2)).map Prod.fst) with
  | error e => rw [hc] at h; cases h
  | ok l =>
  rw [hc] at h
  cases h
  refine is_bind_ok (is_lift _) (is_bind_ok (a := s) ?_ (is_call
    (sim_coalesce (sim_map (sim_takeWhile (simBack_rev sim_range.nextBack)))) (l := l) ?_))
  · rw [hs]; exact is_lift _
  · exact ⟨_, ⟨_, .inr ⟨rfl, _, by simpa using hr, rfl⟩, forall₂_ok _⟩, hc⟩

theorem gapsWithIdentifier_calls {g : Gqdit K D} {d : D} {q : Q} {l : List K} (h : g.gapsWithIdentifier d q = .ok l) :
    ∀ r, g.gapsWithIdentifierCalls d q r ↔ r = .ok l := by
  unfold Gqdit.gapsWithIdentifier at h
  unfold Gqdit.gapsWithIdentifierCalls
  cases hp : invalidIntervalPanic q with
  | error p => rw [hp] at h; cases h
  | ok u =>
  rw [hp] at h
  simp only [bind, Except.bind] at h
  cases ho : g.inner.overlapping q with
  | error e => simp [ho] at h
  | ok o =>
  simp only [ho] at h
  obtain ⟨s, hs, -, hr⟩ := overlappingStart_of ho
  cases hL : g.expandGapsAtPointLeft d (start q) with
  | error e => simp [hL] at h
  | ok L =>
  cases hR : g.expandGapsAtPointRight d (stop q) with
  | error e => simp [hL, hR] at h
  | ok R =>
  simp only [hL, hR] at h
  refine is_bind_ok (is_lift _) (is_bind_ok (a := s) ?_ (is_bind_ok (expandLeft_calls hL) (is_bind_ok (expandRight_calls hR) ?_)))
  · rw [hs]; exact is_lift _
  have fin : ∀ a b : Option K, coalesce
      (fun x y => do
        if ← touchesOrdered x y then pure (.ok (ofInterval (← mergeOrdered x y) : K)) else pure (.error (x, y)))
      (a.toList ++ List.filter (fun gap => !InclusiveInterval.containsPoint gap (start q) &&
        !InclusiveInterval.containsPoint gap (stop q)) (List.map Prod.fst (List.filter (fun e => validIdentifier d e.2) o)) ++
        b.toList) = .ok l →
      ∀ r, Prog.collect
        (It.coalesce
          (fun x y => do
            if ← touchesOrdered x y then pure (.ok (ofInterval (← mergeOrdered x y) : K)) else pure (.error (x, y)))
          (It.chain
            (It.chain It.option
              (It.filter
                (fun gap => !InclusiveInterval.containsPoint gap (start q) && !InclusiveInterval.containsPoint gap (stop q))
                (It.filterMap (fun e : K × Finset D => if validIdentifier d e.2 then some e.1 else none) It.range.next)))
            It.option))
        ((some (some a, s), b), none) r ↔ r = .ok l := by
    intro a b hc
    refine is_collect (sim_coalesce (sim_chain (sim_chain sim_option (sim_filter (sim_filterMap sim_range.next))) sim_option)) ?_
    refine ⟨_, ⟨_, _, ⟨_, _, rfl, ⟨_, ⟨_, hr, rfl⟩, rfl⟩, rfl⟩, rfl, rfl⟩, ?_⟩
    rw [filterMap_fst (fun e : K × Finset D => validIdentifier d e.2 = true)]
    simpa using hc
  match L, R with
  | none, none => exact is_bind_ok (a := (none, none)) (is_lift _) (fin _ _ h)
  | none, some R => exact is_bind_ok (a := (none, some R)) (is_lift _) (fin _ _ h)
  | some L, none => exact is_bind_ok (a := (some L, none)) (is_lift _) (fin _ _ h)
  | some L, some R =>
    by_cases hov : overlapsOrdered L R = true
    · simp only [hov, if_true] at h ⊢
      cases hm : mergeOrdered L R with
      | error e => simp [hm] at h
      | ok i =>
        simp only [hm] at h
        exact is_bind_ok (a := (some (ofInterval i), none)) (is_lift _) (fin _ _ h)
    · simp only [hov] at h ⊢
      exact is_bind_ok (a := (some L, some R)) (is_lift _) (fin _ _ h)

/-- **C84**: `gaps_no_identifier` and `gaps_with_identifier`, run call by call through their chains of lazy adapters
(`rev`, `take_while`, `filter_map`, `filter`, `chain`, `coalesce`), return exactly what C31 and C32 say. -/
theorem C84_gqdit_calls [LawfulPoint I] [LawfulInterval I K] {h : GqHist I K D} {g : Gqdit K D}
    (hg : Gqdit.eval h = .ok g) (d : D) (q : Q) :
    (∀ r, g.gapsNoIdentifierCalls q r ↔ r = g.gapsNoIdentifier q) ∧
    (∀ r, g.gapsWithIdentifierCalls d q r ↔ r = g.gapsWithIdentifier d q) := by
  by_cases hq : Valid q
  · obtain ⟨l, h1, -⟩ := C31_gaps_no_identifier hg hq
    obtain ⟨l', h2, -⟩ := C32_gaps_with_identifier hg d hq
    rw [h1, h2]
    exact ⟨gapsNoIdentifier_calls h1, gapsWithIdentifier_calls h2⟩
  · have hp := invalidIntervalPanic_err (fun hh => hq (valid_iff.2 hh))
    constructor
    · unfold Gqdit.gapsNoIdentifierCalls Gqdit.gapsNoIdentifier
      rw [hp]
      exact is_bind_error (is_lift _)
    · unfold Gqdit.gapsWithIdentifierCalls Gqdit.gapsWithIdentifier
      rw [hp]
      exact is_bind_error (is_lift _)
end

/-! ## Examples -/

/-- `next`, `next_back`, `next_back`, `next` on `overlapping(4..=17)` of the demo map, and once more -/
example : Demo.m.overlapping (Demo.iv 4 17) =
      .ok [(Demo.iv 3 4, 7), (Demo.iv 10 12, 8), (Demo.iv 13 15, 9), (Demo.iv 16 20, 8)] ∧
    takeEnds [(Demo.iv 3 4, 7), (Demo.iv 10 12, 8), (Demo.iv 13 15, 9), (Demo.iv 16 20, 8)]
      [.front, .back, .back, .front, .back] =
      [some (Demo.iv 3 4, 7), some (Demo.iv 16 20, 8), some (Demo.iv 13 15, 9), some (Demo.iv 10 12, 8), none] := by decide

example : ∃ s out, Demo.m.overlappingStart (Demo.iv 4 17) = .ok s ∧ YieldsBothEnds It.range s out ∧ WF out ∧
    ∀ e, e ∈ out ↔ e ∈ Demo.m.iter ∧ Overlap e.1 (Demo.iv 4 17) :=
  C83_map_overlapping (C01_invariant Demo.ops) (valid_iff.2 (by decide))

/-- doubling the first and zeroing the last two values -/
example : updateEnds Demo.m.iter [(.front, fun _ v => 2 * v), (.back, fun _ _ => 0), (.back, fun _ _ => 0)] =
    [(Demo.iv 0 1, 14), (Demo.iv 3 4, 7), (Demo.iv 10 12, 8), (Demo.iv 13 15, 9), (Demo.iv 16 20, 0), (Demo.iv 250 255, 0)] := by
  decide

/-- two calls of `next()` and one of `next_back()` on a map with two values at the same interval -/
example : takeEnds (ZosditMap.after Demo.zops).iter [.back, .front, .back] =
    [some (Demo.iv 30 30, 7), some (Demo.iv 0 2, 1), some (Demo.iv 30 30, 6)] := by decide

/-- the gaps iterator of the demo map and what five calls return -/
example : Demo.m.gapsUntrimmed (Demo.iv 2 22) = .ok [Demo.iv 2 2, Demo.iv 5 9, Demo.iv 21 249] ∧ Valid (Demo.iv 2 22) ∧
    ∃ s, Demo.m.gapsUntrimmedStart (Demo.iv 2 22) = .ok s ∧ Yields NoditMap.gapsIt s [Demo.iv 2 2, Demo.iv 5 9, Demo.iv 21 249] := by
  have h : Demo.m.gapsUntrimmed (Demo.iv 2 22) = .ok [Demo.iv 2 2, Demo.iv 5 9, Demo.iv 21 249] := by rfl
  obtain ⟨s, R, hs, hR, hr⟩ := gapsUntrimmed_lazy h
  exact ⟨h, valid_iff.2 (by decide), s, hs, hR.yields hr⟩

example (r) : Demo.gq.gapsWithIdentifierCalls 1 (Demo.iv 2 52) r ↔ r = .ok [Demo.iv 0 4, Demo.iv 20 49, Demo.iv 52 52] := by
  rw [(C84_gqdit_calls Demo.gh_eval 1 (Demo.iv 2 52)).2 r]
  have : Demo.gq.gapsWithIdentifier 1 (Demo.iv 2 52) = .ok [Demo.iv 0 4, Demo.iv 20 49, Demo.iv 52 52] := by decide
  rw [this]

end Nodit
