import Verif.Props.Nearest
import Verif.Props.Rollback
import Verif.Props.Algebra
import Verif.Props.Pointwise
/-!
# C126: walking over a map by point lookups

Starting at the least point, `get_key_value_at_point(p)` gives the entry or the gap at `p`; the client goes on at the point after its end.
-/
set_option linter.unusedSectionVars false
namespace Nodit.Walk
open Spec PointType NoditMap

variable {I K V : Type} [PointType I] [IntervalType I K] [LawfulPoint I] [LawfulInterval I K]

/-- the interval of the entry or gap found. Client code, models no lines of `/repo`. -/
def key : Except K (K × V) → K
  | .ok e => e.1
  | .error g => g

/-- client code: at most `n` lookups, the first at `p`:
`loop { let r = m.get_key_value_at_point(p); out.push(r); match r.key().end().up() { Some(q) => p = q, None => break } }`; models no lines of `/repo` -/
def walk (m : NoditMap K V) : Nat → I → Res (List (Except K (K × V)))
  | 0, _ => pure []
  | n + 1, p => do
    let r ← m.getKeyValueAtPoint p
    match up (stop (key r)) with
    | none => pure [r]
    | some q => do
      let rest ← walk m n q
      pure (r :: rest)

/-- the entries found -/
def entries (l : List (Except K (K × V))) : List (K × V) := l.filterMap fun r => match r with | .ok e => some e | .error _ => none
/-- the gaps found -/
def gaps (l : List (Except K (K × V))) : List K := l.filterMap fun r => match r with | .ok _ => none | .error g => some g

/-- `r` is what is to be found at `p`: an entry or a maximal gap that starts there -/
def Item (m : NoditMap K V) (p : I) (r : Except K (K × V)) : Prop :=
  start (key r) = p ∧ Valid (I := I) (key r) ∧ (∀ e, r = .ok e → e ∈ m.iter) ∧
    ∀ g, r = .error g → ∃ i : Interval I, g = ofInterval i ∧ MaximalRun (fun p => ¬ ∃ e ∈ m.iter, Mem p e.1) i

/-- a complete walk from `p` -/
def Steps (m : NoditMap K V) : I → List (Except K (K × V)) → Prop
  | _, [] => False
  | p, r :: l => Item m p r ∧ ((l = [] ∧ up (stop (key r) : I) = none) ∨ ∃ q, up (stop (key r)) = some q ∧ Steps m q l)

theorem countP_lt {α : Type} {P Q : α → Bool} {l : List α} (h : ∀ x ∈ l, P x → Q x) {a : α} (ha : a ∈ l) (h1 : P a = false) (h2 : Q a = true) :
    l.countP P + 1 ≤ l.countP Q := by
  induction l with
  | nil => cases ha
  | cons x l ih =>
    have hm : l.countP P ≤ l.countP Q := List.countP_mono_left fun y hy => h y (by simp [hy])
    rw [List.countP_cons, List.countP_cons]
    rcases List.mem_cons.1 ha with rfl | ha
    · simp only [h1, h2]; simp; omega
    · have := ih (fun y hy => h y (by simp [hy])) ha
      have hx := h x (by simp)
      by_cases hp : P x = true
      · simp only [hp, hx hp]; omega
      · simp only [hp]; simp; omega

/-- the number of entries from `p` on -/
def ahead (m : NoditMap K V) (p : I) : Nat := m.iter.countP fun e => decide (p ≤ start e.1)

theorem walk_steps {m : NoditMap K V} (h : WF m.iter) (n : Nat) (p : I)
    (h1 : ∀ e ∈ m.iter, Mem p e.1 → start e.1 = p)
    (h2 : (∃ e ∈ m.iter, Mem p e.1) ∨ p = MIN ∨ ∃ q, up q = some p ∧ ∃ e ∈ m.iter, Mem q e.1)
    (hn : ((∃ e ∈ m.iter, Mem p e.1) ∧ 2 * ahead m p ≤ n) ∨ 2 * ahead m p + 1 ≤ n) :
    ∃ l, walk m n p = .ok l ∧ Steps m p l ∧ l.length ≤ n ∧
      ((∃ e ∈ m.iter, Mem p e.1) → l.length ≤ 2 * ahead m p) ∧ l.length ≤ 2 * ahead m p + 1 := by
  induction n generalizing p with
  | zero =>
    exfalso
    rcases hn with ⟨⟨e, he, hp⟩, hn⟩ | hn
    · have : 0 < ahead m p := List.countP_pos_iff.2 ⟨e, he, by simp [h1 e he hp]⟩
      omega
    · omega
  | succ n ih =>
    obtain ⟨r, g1, g2, g3⟩ := spec_getKeyValueAtPoint h p
    cases r with
    | ok e =>
      obtain ⟨he, hp⟩ := (g2 e).1 rfl
      have hs := h1 e he hp
      have hv := h.1 e he
      have hitem : Item m p (.ok e) := ⟨hs, hv, by rintro _ ⟨⟩; exact he, by rintro _ ⟨⟩⟩
      have hpos : 0 < ahead m p := List.countP_pos_iff.2 ⟨e, he, by simp [hs]⟩
      cases hu : up (stop e.1 : I) with
      | none =>
        refine ⟨[.ok e], by simp only [walk, g1, key, hu, bind, Except.bind, pure, Except.pure], ⟨hitem, Or.inl ⟨rfl, hu⟩⟩, ?_, ?_, ?_⟩ <;>
          simp <;> omega
      | some q =>
        obtain ⟨u1, u2⟩ := LawfulPoint.up_some _ _ hu
        have hlt : ahead m q + 1 ≤ ahead m p := by
          refine countP_lt (a := e) (fun x _ hx => ?_) he ?_ (by simp [hs])
          · have := valid_iff.1 hv
            simp only [decide_eq_true_eq] at hx ⊢
            order
          · have := valid_iff.1 hv
            simp only [decide_eq_false_iff_not]
            intro hc; order
        obtain ⟨l, w1, w2, w3, w4, w5⟩ := ih q (by
          intro d hd hq
          by_contra hne
          have hlt : start d.1 < q := lt_of_le_of_ne hq.1 hne
          have hle : start d.1 ≤ stop e.1 := by
            by_contra hc
            exact absurd (u2 _ (not_le.1 hc)) (not_le.2 hlt)
          have := entries_disjoint h d hd e he ⟨stop e.1, ⟨hle, le_of_lt (lt_of_lt_of_le u1 hq.2)⟩, valid_iff.1 hv, le_refl _⟩
          subst this
          exact absurd (lt_of_lt_of_le u1 hq.2) (lt_irrefl _))
          (Or.inr (Or.inr ⟨stop e.1, hu, e, he, valid_iff.1 hv, le_refl _⟩))
          (Or.inr (by rcases hn with ⟨-, hn⟩ | hn <;> omega))
        refine ⟨.ok e :: l, by simp only [walk, g1, key, hu, w1, bind, Except.bind, pure, Except.pure], ⟨hitem, Or.inr ⟨q, hu, w2⟩⟩, ?_, ?_, ?_⟩ <;>
          simp <;> omega
    | error g =>
      obtain ⟨i, rfl, hmax, hpi⟩ := g3 g rfl
      have hmax' : MaximalRun (fun p => ¬ ∃ e ∈ m.iter, Mem p e.1) i := hmax
      have hnp : ¬ ∃ e ∈ m.iter, Mem p e.1 := hmax'.2.1 p hpi
      have hn : 2 * ahead m p + 1 ≤ n + 1 := by
        rcases hn with ⟨hc, -⟩ | hn
        · exact absurd hc hnp
        · exact hn
      have e1 : start (ofInterval i : K) = i.start := LawfulInterval.start_of _
      have e2 : stop (ofInterval i : K) = i.stop := LawfulInterval.stop_of _
      have hvi : i.start ≤ i.stop := valid_iff.1 hmax'.1
      have hsp : i.start = p := by
        by_contra hne
        have hlt : i.start < p := lt_of_le_of_ne hpi.1 hne
        rcases h2 with hc | rfl | ⟨q, hq, hc⟩
        · exact hnp hc
        · exact absurd hlt (not_lt.2 (LawfulPoint.min_le _))
        · obtain ⟨u1, u2⟩ := LawfulPoint.up_some _ _ hq
          have hle : i.start ≤ q := by
            by_contra hc
            exact absurd (u2 _ (not_le.1 hc)) (not_le.2 hlt)
          exact hmax'.2.1 q ⟨hle, le_of_lt (lt_of_lt_of_le u1 hpi.2)⟩ hc
      have hitem : Item m p (.error (ofInterval i)) := ⟨e1.trans hsp, valid_iff.2 (by simp only [key]; rw [e1, e2]; exact hvi), by rintro _ ⟨⟩,
        by rintro _ ⟨⟩; exact ⟨i, rfl, hmax'⟩⟩
      cases hu : up i.stop with
      | none =>
        have hu' : up (stop (ofInterval i : K) : I) = none := by rw [e2]; exact hu
        refine ⟨[.error (ofInterval i)], by simp only [walk, g1, key, hu', bind, Except.bind, pure, Except.pure], ⟨hitem, Or.inl ⟨rfl, hu'⟩⟩, ?_, ?_, ?_⟩
        · simp
        · exact fun hc => absurd hc hnp
        · simp
      | some q =>
        have hu' : up (stop (ofInterval i : K) : I) = some q := by rw [e2]; exact hu
        obtain ⟨u1, u2⟩ := LawfulPoint.up_some _ _ hu
        have hq : ∃ e ∈ m.iter, Mem q e.1 := by
          by_contra hc
          have := hmax'.2.2 ⟨i.start, q⟩ (fun x hx => by
            by_cases hxs : x ≤ i.stop
            · exact hmax'.2.1 x ⟨hx.1, hxs⟩
            · have : x = q := le_antisymm hx.2 (u2 x (not_le.1 hxs))
              rw [this]; exact hc) ⟨i.start, ⟨le_refl _, hvi⟩, le_refl _, le_of_lt (lt_of_le_of_lt hvi u1)⟩ q ⟨le_of_lt (lt_of_le_of_lt hvi u1), le_refl _⟩
          exact absurd (lt_of_lt_of_le u1 this.2) (lt_irrefl _)
        have hle : ahead m q ≤ ahead m p := List.countP_mono_left fun x _ hx => by
          simp only [decide_eq_true_eq] at hx ⊢
          order
        obtain ⟨l, w1, w2, w3, w4, w5⟩ := ih q (by
          intro d hd hqd
          by_contra hne
          have hlt : start d.1 < q := lt_of_le_of_ne hqd.1 hne
          have hle : start d.1 ≤ i.stop := by
            by_contra hc
            exact absurd (u2 _ (not_le.1 hc)) (not_le.2 hlt)
          exact hmax'.2.1 i.stop ⟨hvi, le_refl _⟩ ⟨d, hd, hle, le_of_lt (lt_of_lt_of_le u1 hqd.2)⟩)
          (Or.inl hq) (Or.inl ⟨hq, by omega⟩)
        have w4 := w4 hq
        refine ⟨.error (ofInterval i) :: l, by simp only [walk, g1, key, hu', w1, bind, Except.bind, pure, Except.pure], ⟨hitem, Or.inr ⟨q, hu', w2⟩⟩, ?_, ?_, ?_⟩
        · simp; omega
        · exact fun hc => absurd hc hnp
        · simp; omega

theorem Steps.all {m : NoditMap K V} {p : I} {l : List (Except K (K × V))} (h : Steps m p l) :
    (∀ r ∈ l, p ≤ start (key r) ∧ Item m (start (key r)) r) ∧ (l.map key).Pairwise (fun a b => Before (I := I) a b) ∧
      ∀ x, p ≤ x → ∃ r ∈ l, Mem x (key r) := by
  induction l generalizing p with
  | nil => cases h
  | cons r l ih =>
    obtain ⟨hi, hl⟩ := h
    have hv := valid_iff.1 hi.2.1
    rcases hl with ⟨rfl, hu⟩ | ⟨q, hu, hl⟩
    · refine ⟨by simpa using ⟨hi.1.ge, by rw [hi.1]; exact hi⟩, by simp, fun x hx => ⟨r, by simp, by rw [hi.1]; exact hx, LawfulPoint.up_none _ hu x⟩⟩
    · obtain ⟨u1, u2⟩ := LawfulPoint.up_some _ _ hu
      obtain ⟨a1, a2, a3⟩ := ih hl
      have hpq : p < q := by rw [← hi.1]; exact lt_of_le_of_lt hv u1
      refine ⟨fun r' hr' => ?_, ?_, fun x hx => ?_⟩
      · rcases List.mem_cons.1 hr' with rfl | hr'
        · exact ⟨hi.1.ge, by rw [hi.1]; exact hi⟩
        · exact ⟨le_of_lt (lt_of_lt_of_le hpq (a1 r' hr').1), (a1 r' hr').2⟩
      · rw [List.map_cons, List.pairwise_cons]
        refine ⟨fun k hk => ?_, a2⟩
        obtain ⟨r', hr', rfl⟩ := List.mem_map.1 hk
        intro x y hx hy
        have := (a1 r' hr').1
        have h3 : start (key r') ≤ y := hy.1
        have h4 : x ≤ stop (key r) := hx.2
        order
      · by_cases hxs : x ≤ stop (key r)
        · exact ⟨r, by simp, by rw [hi.1]; exact hx, hxs⟩
        · obtain ⟨r', hr', hm⟩ := a3 x (u2 x (not_le.1 hxs))
          exact ⟨r', by simp [hr'], hm⟩

theorem ascending_ext {l l' : List K} (h : Ascending (I := I) l) (h' : Ascending (I := I) l') (hm : ∀ k, k ∈ l ↔ k ∈ l') : l = l' := by
  have hw : ∀ {l : List K}, Ascending (I := I) l → WF (⟨l.map fun k => (k, ())⟩ : NoditMap K Unit).iter := fun h =>
    ⟨fun e he => by obtain ⟨k, hk, rfl⟩ := List.mem_map.1 he; exact h.1 k hk, List.pairwise_map.2 h.2⟩
  have := NoditMap.ext_entries (hw h) (hw h') fun e => by
    show e ∈ l.map (fun k => (k, ())) ↔ e ∈ l'.map (fun k => (k, ()))
    simp [List.mem_map, hm]
  have h2 := congrArg (fun m : NoditMap K Unit => m.inner.map Prod.fst) this
  simpa [Function.comp_def] using h2

/-- **C126**: on every well-formed map, the walk from the least point does not panic and ends after at most `2 * len() + 1` lookups; the entries
it finds are those of `iter()`, the gaps it finds are those of `gaps_untrimmed` over the whole range, each in order; together they are in ascending
order, and every point lies in exactly one of them. -/
theorem C126_walk {m : NoditMap K V} (h : WF m.iter) {n : Nat} (hn : 2 * m.len + 1 ≤ n) :
    ∃ l, walk m n (MIN : I) = .ok l ∧ l.length ≤ 2 * m.len + 1 ∧ entries l = m.iter ∧
      m.gapsUntrimmed (⟨MIN, MAX⟩ : Interval I) = .ok (gaps l) ∧
      Ascending (I := I) (l.map key) ∧ ∀ p : I, ∃! k, k ∈ l.map key ∧ Mem p k := by
  have ha : ahead m (MIN : I) = m.len := by
    rw [ahead, NoditMap.len]
    exact List.countP_eq_length.2 fun e _ => by simp [LawfulPoint.min_le]
  obtain ⟨l, w1, w2, w3, -, w5⟩ := walk_steps h n MIN (fun e he hp => le_antisymm hp.1 (LawfulPoint.min_le _)) (Or.inr (Or.inl rfl))
    (Or.inr (by rw [ha]; exact hn))
  obtain ⟨s1, s2, s3⟩ := w2.all
  have hA : Ascending (I := I) (l.map key) := ⟨fun k hk => by
    obtain ⟨r, hr, rfl⟩ := List.mem_map.1 hk
    exact (s1 r hr).2.2.1, s2⟩
  have hcov : ∀ p : I, ∃ r ∈ l, Mem p (key r) := fun p => s3 p (LawfulPoint.min_le _)
  have s2' : l.Pairwise (fun a b => Before (I := I) (key a) (key b)) := List.pairwise_map.1 s2
  refine ⟨l, w1, by rw [ha] at w5; exact w5, ?_, ?_, hA, fun p => ?_⟩
  · have hmem : ∀ e, e ∈ entries l ↔ .ok e ∈ l := by
      intro e
      simp only [entries, List.mem_filterMap]
      constructor
      · rintro ⟨r, hr, hx⟩
        cases r with
        | ok d => cases hx; exact hr
        | error _ => cases hx
      · exact fun hr => ⟨_, hr, rfl⟩
    have hwf : WF (⟨entries l⟩ : NoditMap K V).iter := by
      refine ⟨fun e he => (s1 _ ((hmem e).1 he)).2.2.1, ?_⟩
      refine List.pairwise_filterMap.2 (s2'.imp ?_)
      intro a b hab x hx y hy
      cases a with
      | error _ => cases hx
      | ok a => cases b with
        | error _ => cases hy
        | ok b => cases hx; cases hy; exact hab
    have := NoditMap.ext_entries hwf h fun e => by
      show e ∈ entries l ↔ e ∈ m.iter
      rw [hmem]
      refine ⟨fun hr => (s1 _ hr).2.2.2.1 e rfl, fun he => ?_⟩
      have hv := valid_iff.1 (h.1 e he)
      obtain ⟨r, hr, hm⟩ := hcov (start e.1)
      cases r with
      | ok d =>
        have hd := (s1 _ hr).2.2.2.1 d rfl
        rw [entries_disjoint h e he d hd ⟨start e.1, ⟨le_refl _, hv⟩, hm⟩]
        exact hr
      | error g =>
        obtain ⟨i, rfl, hmax⟩ := (s1 _ hr).2.2.2.2 g rfl
        exact absurd ⟨e, he, le_refl _, hv⟩ (hmax.2.1 (start e.1) (by
          have : Mem (start e.1 : I) (ofInterval i : K) := hm
          rwa [Mem, LawfulInterval.start_of, LawfulInterval.stop_of] at this))
    exact congrArg NoditMap.inner this
  · have hmem : ∀ g, g ∈ gaps l ↔ .error g ∈ l := by
      intro e
      simp only [gaps, List.mem_filterMap]
      constructor
      · rintro ⟨r, hr, hx⟩
        cases r with
        | ok d => cases hx
        | error _ => cases hx; exact hr
      · exact fun hr => ⟨_, hr, rfl⟩
    have hasc : Ascending (I := I) (gaps l) := by
      refine ⟨fun g hg => (s1 _ ((hmem g).1 hg)).2.2.1, ?_⟩
      refine List.pairwise_filterMap.2 (s2'.imp ?_)
      intro a b hab x hx y hy
      cases a with
      | ok _ => cases hx
      | error a => cases b with
        | ok _ => cases hy
        | error b => cases hx; cases hy; exact hab
    have hq : Valid (⟨MIN, MAX⟩ : Interval I) := ⟨MIN, le_refl _, LawfulPoint.min_le _⟩
    obtain ⟨out, o1, o2, o3⟩ := C14_gaps_untrimmed h (⟨MIN, MAX⟩ : Interval I) hq
    rw [o1]
    congr 1
    refine ascending_ext o2 hasc fun g => ?_
    rw [o3, hmem]
    constructor
    · rintro ⟨i, rfl, hmax, -⟩
      have hv := valid_iff.1 hmax.1
      obtain ⟨r, hr, hm⟩ := hcov i.start
      cases r with
      | ok d => exact absurd ⟨d, (s1 _ hr).2.2.2.1 d rfl, hm⟩ (hmax.2.1 i.start ⟨le_refl _, hv⟩)
      | error g =>
        obtain ⟨j, rfl, hmaxj⟩ := (s1 _ hr).2.2.2.2 g rfl
        have hmj : Mem i.start j := by
          have : Mem (i.start : I) (ofInterval j : K) := hm
          rwa [Mem, LawfulInterval.start_of, LawfulInterval.stop_of] at this
        have hij : ∀ p, Mem p i ↔ Mem p j := fun p =>
          ⟨fun hp => hmaxj.2.2 i hmax.2.1 ⟨i.start, hmj, le_refl _, hv⟩ p hp,
            fun hp => hmax.2.2 j hmaxj.2.1 ⟨i.start, ⟨le_refl _, hv⟩, hmj⟩ p hp⟩
        rw [interval_eq_of_mem_iff hmax.1 hij]
        exact hr
    · intro hr
      obtain ⟨i, rfl, hmax⟩ := (s1 _ hr).2.2.2.2 g rfl
      exact ⟨i, rfl, hmax, i.start, ⟨le_refl _, valid_iff.1 hmax.1⟩, LawfulPoint.min_le _, LawfulPoint.le_max _⟩
  · obtain ⟨r, hr, hm⟩ := hcov p
    refine ⟨key r, ⟨List.mem_map_of_mem hr, hm⟩, ?_⟩
    rintro k ⟨hk, hkm⟩
    by_contra hne
    rcases pairwise_or hA.2 hk (List.mem_map_of_mem hr) hne with hb | hb
    · exact lt_irrefl p (hb p p hkm hm)
    · exact lt_irrefl p (hb p p hm hkm)

end Nodit.Walk
