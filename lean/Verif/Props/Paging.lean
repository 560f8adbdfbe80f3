import Verif.Props.Nearest
import Verif.Props.Algebra
/-!
# C139: paging through a map that changes

A client reads a map page by page with `overlapping(ii(cursor, MAX)).take(k)`; the next cursor is the point after the end of the last entry read.
Between pages the map may be changed by anyone in any way.
-/
set_option linter.unusedSectionVars false
namespace Nodit.Paging
open Spec PointType NoditMap

variable {I K V : Type} [PointType I] [IntervalType I K] [LawfulPoint I] [LawfulInterval I K]

/-- where the next page begins: `page.last().and_then(|e| e.0.end().up())`. A client, models no lines of `/repo`. -/
def next (page : List (K × V)) : Option I :=
  match page.getLast? with
  | none => none
  | some e => up (stop e.1)

/-- One page: nothing once the cursor is `None`, else `m.overlapping(ii(cursor, MAX)).take(k).collect()`. A client, models no lines of `/repo`. -/
def page (m : NoditMap K V) (k : Nat) : Option I → Res (List (K × V) × Option I)
  | none => pure ([], none)
  | some p => do
    let es ← m.overlapping (⟨p, MAX⟩ : Interval I)
    pure (es.take k, next (es.take k))

/-- Page after page; `l` has the map as it is when the page is read, and the size of the page. A client, models no lines of `/repo`. -/
def pages : List (NoditMap K V × Nat) → Option I → Res (List (List (K × V)) × Option I)
  | [], c => pure ([], c)
  | x :: l, c => do
    let (out, c) ← page x.1 x.2 c
    let (outs, c) ← pages l c
    pure (out :: outs, c)

/-- the cursor is beyond the point -/
def Past (c : Option I) (x : I) : Prop := ∀ q, c = some q → x < q

instance (c : Option I) (x : I) : Decidable (Past c x) :=
  match c with
  | none => isTrue (fun _ h => by cases h)
  | some q => if h : x < q then isTrue (fun _ hq => by cases hq; exact h) else isFalse (fun hc => h (hc q rfl))

/-- what is still to be read -/
def rest (m : NoditMap K V) (c : Option I) : List (K × V) := m.iter.filter fun e => decide (¬ Past c (stop e.1))

theorem stops {l : List (K × V)} (h : WF (I := I) l) : l.Pairwise fun a b => stop (I := I) a.1 < stop b.1 := by
  refine (List.pairwise_iff_forall_sublist.2 fun {a b} hs => ?_)
  have ha := h.1 a (hs.subset (by simp))
  have hb := h.1 b (hs.subset (by simp))
  have hab := List.pairwise_iff_forall_sublist.1 h.2 hs
  exact hab _ _ ⟨valid_iff.1 ha, le_refl _⟩ ⟨valid_iff.1 hb, le_refl _⟩

theorem rest_none (m : NoditMap K V) : rest (I := I) m none = [] := by
  simp [rest, Past]

/-- a page is the beginning of what is still to be read -/
theorem page_eq {m : NoditMap K V} (h : WF (I := I) m.iter) (k : Nat) (c : Option I) :
    ∃ c', page m k c = .ok ((rest m c).take k, c') ∧ (∀ x, Past c x → 1 ≤ k → Past c' x) ∧ (1 ≤ k → rest m c' = (rest m c).drop k) ∧
      (rest m c = [] → c' = none) ∧ ∀ e ∈ (rest m c).take k, Past c' (stop e.1) := by
  cases c with
  | none => exact ⟨none, by simp [page, rest_none, pure, Except.pure], fun x h _ => h, fun _ => by simp [rest_none], fun _ => rfl,
      by simp [rest_none]⟩
  | some p =>
    obtain ⟨es, h1, h2⟩ := spec_overlapping h (q := (⟨p, MAX⟩ : Interval I)) ⟨p, le_refl _, LawfulPoint.le_max _⟩
    have hr : WF (I := I) (rest m (some p)) := ⟨fun e he => h.1 e (List.mem_of_mem_filter he), h.2.sublist List.filter_sublist⟩
    have he : es = rest m (some p) := by
      refine congrArg NoditMap.inner (NoditMap.ext_entries (m := ⟨es⟩) (m' := ⟨rest m (some p)⟩) h2.1 hr fun e => ?_)
      show e ∈ es ↔ e ∈ rest m (some p)
      rw [h2.2 e, rest, List.mem_filter]
      refine and_congr_right fun hm => ?_
      have hv := valid_iff.1 (h.1 e hm)
      simp only [Past, Option.some.injEq, forall_eq', decide_eq_true_eq, not_lt]
      constructor
      · rintro ⟨x, hx, hx'⟩; exact le_trans hx'.1 hx.2
      · exact fun hp => ⟨stop e.1, ⟨hv, le_refl _⟩, hp, LawfulPoint.le_max _⟩
    subst he
    have hst := stops hr
    set r := rest m (some p) with hrdef
    have hmem : ∀ e ∈ r, p ≤ stop e.1 := fun e he => by
      have := (List.mem_filter.1 he).2
      simpa [Past] using this
    refine ⟨next (r.take k), by simp only [page, h1, bind, Except.bind, pure, Except.pure], ?_, ?_, ?_, ?_⟩
    · intro x hx _ q hq
      unfold next at hq
      cases hl : (r.take k).getLast? with
      | none => rw [hl] at hq; cases hq
      | some e =>
        rw [hl] at hq
        have := hmem e (List.mem_of_mem_take (List.mem_of_mem_getLast? hl))
        have hx := hx p rfl
        have hu := (LawfulPoint.up_some _ _ hq).1
        order
    · intro hk
      have hsplit : r.take k ++ r.drop k = r := List.take_append_drop k r
      have hpw : ∀ a ∈ r.take k, ∀ b ∈ r.drop k, stop (I := I) a.1 < stop b.1 := by
        rw [← hsplit] at hst; exact (List.pairwise_append.1 hst).2.2
      have hlast : ∀ e, (r.take k).getLast? = some e → ∀ a ∈ r.take k, stop (I := I) a.1 ≤ stop e.1 := by
        intro e hl a ha
        obtain ⟨ys, hys⟩ := List.getLast?_eq_some_iff.1 hl
        have : (r.take k).Pairwise fun a b => stop (I := I) a.1 < stop b.1 := hst.sublist (List.take_sublist _ _)
        rw [hys] at this ha
        rcases List.mem_append.1 ha with ha | ha
        · exact le_of_lt ((List.pairwise_append.1 this).2.2 a ha e (by simp))
        · simp at ha; rw [ha]
      have hfil : ∀ c', (∀ x, x < p → Past c' x) → rest m c' = r.filter fun e => decide (¬ Past c' (stop e.1)) := by
        intro c' hc'
        rw [hrdef, rest, rest, List.filter_filter]
        refine List.filter_congr fun e _ => ?_
        by_cases hp : stop e.1 < p
        · simp [hc' _ hp]
        · have : ¬ Past (some p) (stop e.1) := fun hc => hp (hc p rfl)
          simp [this]
      unfold next
      cases hl : (r.take k).getLast? with
      | none =>
        have ht : r.take k = [] := List.getLast?_eq_none_iff.1 hl
        have : r = [] := by
          rcases List.take_eq_nil_iff.1 ht with h | h
          · omega
          · exact h
        simp only [this, List.drop_nil]
        exact rest_none m
      | some e =>
        have hin := List.mem_of_mem_getLast? hl
        cases hu : (up (stop e.1) : Option I) with
        | none =>
          simp only [hu]
          rw [rest_none]
          symm
          by_contra hne
          obtain ⟨d, hd⟩ := List.exists_mem_of_ne_nil _ hne
          have := hpw e hin d hd
          exact absurd this (not_lt.2 (LawfulPoint.up_none _ hu _))
        | some q =>
          obtain ⟨u1, u2⟩ := LawfulPoint.up_some _ _ hu
          have hpe := hmem e (List.mem_of_mem_take hin)
          simp only [hu]
          rw [hfil (some q) (fun x hx q' hq' => by cases hq'; order)]
          conv_lhs => rw [← hsplit]
          rw [List.filter_append, List.filter_eq_nil_iff.2, List.filter_eq_self.2]
          · rfl
          · intro d hd
            have := u2 _ (hpw e hin d hd)
            simpa [Past] using this
          · intro a ha
            have := hlast e hl a ha
            simp only [Past, Option.some.injEq, forall_eq', decide_eq_true_eq, not_not]
            order
    · intro hnil
      simp [next, hnil]
    · intro a ha q hq
      unfold next at hq
      cases hl : (r.take k).getLast? with
      | none => rw [hl] at hq; cases hq
      | some e =>
        rw [hl] at hq
        have hu := (LawfulPoint.up_some _ _ hq).1
        obtain ⟨ys, hys⟩ := List.getLast?_eq_some_iff.1 hl
        have : (r.take k).Pairwise fun a b => stop (I := I) a.1 < stop b.1 := hst.sublist (List.take_sublist _ _)
        rw [hys] at this ha
        rcases List.mem_append.1 ha with ha | ha
        · have := (List.pairwise_append.1 this).2.2 a ha e (by simp)
          order
        · simp at ha; rw [ha]; exact hu

theorem mem_rest {m : NoditMap K V} {c : Option I} {e : K × V} : e ∈ rest m c ↔ e ∈ m.iter ∧ ¬ Past c (stop e.1) := by
  simp [rest]

theorem pages_spec (l : List (NoditMap K V × Nat)) (hw : ∀ x ∈ l, WF (I := I) x.1.iter) (hk : ∀ x ∈ l, 1 ≤ x.2) (c : Option I) :
    ∃ outs c', pages l c = .ok (outs, c') ∧
      List.Forall₂ (fun out x => out.length ≤ x.2 ∧ WF (I := I) out ∧ ∀ e ∈ out, e ∈ x.1.iter) outs l ∧
      outs.flatten.Pairwise (fun a b => stop (I := I) a.1 < stop b.1) ∧
      (∀ e ∈ outs.flatten, ¬ Past c (stop e.1) ∧ Past c' (stop e.1)) ∧ (∀ x, Past c x → Past c' x) ∧
      ∀ e, (∀ x ∈ l, e ∈ x.1.iter) → Past c' (stop e.1) → Past c (stop e.1) ∨ e ∈ outs.flatten := by
  induction l generalizing c with
  | nil => exact ⟨[], c, rfl, .nil, by simp, by simp, fun _ h => h, fun e _ h => Or.inl h⟩
  | cons x l ih =>
    have hx := hw x (by simp)
    obtain ⟨c1, p1, p2, p3, -, p5⟩ := page_eq hx x.2 c
    have p2 := fun y hy => p2 y hy (hk x (by simp))
    have p3 := p3 (hk x (by simp))
    obtain ⟨outs, c', o1, o2, o3, o4, o5, o6⟩ := ih (fun y hy => hw y (by simp [hy])) (fun y hy => hk y (by simp [hy])) c1
    have hr : WF (I := I) (rest x.1 c) := ⟨fun e he => hx.1 e (List.mem_of_mem_filter he), hx.2.sublist List.filter_sublist⟩
    have ht : WF (I := I) ((rest x.1 c).take x.2) := ⟨fun e he => hr.1 e (List.mem_of_mem_take he), hr.2.sublist (List.take_sublist _ _)⟩
    refine ⟨(rest x.1 c).take x.2 :: outs, c', by simp only [pages, p1, o1, bind, Except.bind, pure, Except.pure],
      .cons ⟨by simp, ht, fun e he => (mem_rest.1 (List.mem_of_mem_take he)).1⟩ o2, ?_, ?_, fun y hy => o5 y (p2 y hy), ?_⟩
    · rw [List.flatten_cons, List.pairwise_append]
      refine ⟨stops ht, o3, fun a ha b hb => ?_⟩
      have h1 := p5 a ha
      have h2 := (o4 b hb).1
      simp only [Past, not_forall] at h2
      obtain ⟨q, hq, h2⟩ := h2
      exact lt_of_lt_of_le (h1 q hq) (not_lt.1 h2)
    · intro e he
      rw [List.flatten_cons, List.mem_append] at he
      rcases he with he | he
      · exact ⟨(mem_rest.1 (List.mem_of_mem_take he)).2, o5 _ (p5 e he)⟩
      · exact ⟨fun hc => (o4 e he).1 (p2 _ hc), (o4 e he).2⟩
    · intro e he hp
      rw [List.flatten_cons, List.mem_append]
      rcases o6 e (fun y hy => he y (by simp [hy])) hp with h | h
      · by_cases hc : Past c (stop e.1)
        · exact Or.inl hc
        · have hm : e ∈ rest x.1 c := mem_rest.2 ⟨he x (by simp), hc⟩
          rw [← List.take_append_drop x.2 (rest x.1 c)] at hm
          rcases List.mem_append.1 hm with hm | hm
          · exact Or.inr (Or.inl hm)
          · rw [← p3] at hm
            exact absurd h (mem_rest.1 hm).2
      · exact Or.inr (Or.inr h)

/-- **C139**: reading page after page, from any cursor, with whatever happens to the map between the pages, never panics. Each page is in order, has at
most as many entries as wanted, all of them in the map at that time. Over all pages together the ends of the entries ascend strictly, so that no entry
is delivered twice. -/
theorem C139_pages (l : List (NoditMap K V × Nat)) (hw : ∀ x ∈ l, WF (I := I) x.1.iter) (hk : ∀ x ∈ l, 1 ≤ x.2) (c : Option I) :
    ∃ outs c', pages l c = .ok (outs, c') ∧
      List.Forall₂ (fun out x => out.length ≤ x.2 ∧ WF (I := I) out ∧ ∀ e ∈ out, e ∈ x.1.iter) outs l ∧
      outs.flatten.Pairwise (fun a b => stop (I := I) a.1 < stop b.1) ∧ outs.flatten.Nodup := by
  obtain ⟨outs, c', h1, h2, h3, -⟩ := pages_spec l hw hk c
  exact ⟨outs, c', h1, h2, h3, h3.imp fun {a b} hab hc => by rw [hc] at hab; exact lt_irrefl _ hab⟩

/-- **C139**: an entry that was in the map whenever a page was read has been delivered, if it ends before the cursor reached, and has not, if it does
not; when the cursor is `None`, all these have been delivered. -/
theorem C139_complete {l : List (NoditMap K V × Nat)} (hw : ∀ x ∈ l, WF (I := I) x.1.iter) (hk : ∀ x ∈ l, 1 ≤ x.2)
    {outs : List (List (K × V))} {c : Option I} (h : pages l (some MIN) = .ok (outs, c)) {e : K × V} (he : ∀ x ∈ l, e ∈ x.1.iter) :
    (c = none → e ∈ outs.flatten) ∧ ∀ q, c = some q → (e ∈ outs.flatten ↔ stop e.1 < q) := by
  obtain ⟨outs', c', h1, -, -, h4, -, h6⟩ := pages_spec l hw hk (some MIN)
  rw [h] at h1; cases h1
  have h0 : ∀ x : I, ¬ Past (some MIN) x := fun x hc => absurd (hc MIN rfl) (not_lt.2 (LawfulPoint.min_le _))
  refine ⟨?_, ?_⟩
  · rintro rfl
    exact (h6 e he (by rintro q ⟨⟩)).resolve_left (h0 _)
  · rintro q rfl
    refine ⟨fun hm => (h4 e hm).2 q rfl, fun hlt => (h6 e he (by rintro _ ⟨⟩; exact hlt)).resolve_left (h0 _)⟩

theorem pages_none (l : List (NoditMap K V × Nat)) : ∃ outs, pages l (none : Option I) = .ok (outs, none) ∧ outs.flatten = [] := by
  induction l with
  | nil => exact ⟨[], rfl, rfl⟩
  | cons x l ih =>
    obtain ⟨outs, h1, h2⟩ := ih
    exact ⟨[] :: outs, by simp only [pages, page, h1, bind, Except.bind, pure, Except.pure], by simpa using h2⟩

theorem still {m : NoditMap K V} (h : WF (I := I) m.iter) {k : Nat} (hk : 1 ≤ k) (n : Nat) (c : Option I) :
    ∃ outs c', pages (List.replicate n (m, k)) c = .ok (outs, c') ∧ outs.flatten = (rest m c).take (n * k) ∧
      (1 ≤ n → (rest m c).length ≤ (n - 1) * k → c' = none) := by
  induction n generalizing c with
  | zero => exact ⟨[], c, rfl, by simp, fun h => by omega⟩
  | succ n ih =>
    obtain ⟨c1, p1, -, p3, p4, -⟩ := page_eq h k c
    have p3 := p3 hk
    obtain ⟨outs, c', o1, o2, o3⟩ := ih c1
    refine ⟨(rest m c).take k :: outs, c', by simp only [List.replicate_succ, pages, p1, o1, bind, Except.bind, pure, Except.pure], ?_, ?_⟩
    · rw [List.flatten_cons, o2, p3, Nat.succ_mul, Nat.add_comm (n * k) k, List.take_add]
    · intro _ hlen
      rcases Nat.eq_zero_or_pos n with rfl | hn
      · have : rest m c = [] := List.eq_nil_of_length_eq_zero (by simpa using hlen)
        have hc1 := p4 this
        simp only [List.replicate_zero, pages] at o1
        cases o1; exact hc1
      · refine o3 hn ?_
        rw [p3, List.length_drop]
        obtain ⟨j, rfl⟩ : ∃ j, n = j + 1 := ⟨n - 1, by omega⟩
        simp only [Nat.add_sub_cancel] at hlen ⊢
        rw [Nat.succ_mul] at hlen
        omega

/-- **C139**: if nobody changes the map, `n` pages of `k` entries are the first `n * k` entries in order, and the cursor is `None` at the latest one page
after the last entry was read. -/
theorem C139_still {m : NoditMap K V} (h : WF (I := I) m.iter) {k : Nat} (hk : 1 ≤ k) (n : Nat) :
    ∃ outs c, pages (List.replicate n (m, k)) (some (MIN : I)) = .ok (outs, c) ∧ outs.flatten = m.iter.take (n * k) ∧
      (1 ≤ n → m.len ≤ (n - 1) * k → c = none) := by
  obtain ⟨outs, c, h1, h2, h3⟩ := still h hk n (some MIN)
  have : rest m (some (MIN : I)) = m.iter := by
    refine List.filter_eq_self.2 fun e _ => ?_
    simp only [Past, Option.some.injEq, forall_eq', decide_eq_true_eq, not_lt]
    exact LawfulPoint.min_le _
  rw [this] at h2 h3
  exact ⟨outs, c, h1, h2, h3⟩

end Nodit.Paging
