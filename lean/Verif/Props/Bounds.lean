import Verif.Props.MapProps
import Verif.Props.GqditProps
import Verif.Props.ZosditProps
import Verif.Props.SetProps
import Mathlib.Data.List.Perm.Subperm
import Mathlib.Data.Fintype.Card
/-!
# C81: how large the structures can get
-/
set_option linter.unusedSectionVars false
namespace Nodit
open Spec PointType

/-! ## Counting -/

theorem length_le_of_inj {α β : Type} {l : List α} {es : List β} {f : α → β} (hn : l.Nodup)
    (hi : ∀ a ∈ l, ∀ b ∈ l, f a = f b → a = b) (hm : ∀ a ∈ l, f a ∈ es) : l.length ≤ es.length := by
  have h1 : (l.map f).Nodup := List.Nodup.map_on (fun a ha b hb => hi a ha b hb) hn
  have h2 : l.map f ⊆ es := by
    intro x hx
    obtain ⟨a, ha, rfl⟩ := List.mem_map.1 hx
    exact hm a ha
  have := (List.subperm_of_subset h1 h2).length_le
  simpa using this

theorem length_le_of_subset {α : Type} {l es : List α} (hn : l.Nodup) (hm : ∀ a ∈ l, a ∈ es) : l.length ≤ es.length :=
  length_le_of_inj (f := id) hn (fun _ _ _ _ h => h) hm

variable {I K Q V D : Type} [PointType I] [IntervalType I K] [IntervalType I Q] [LawfulPoint I] [LawfulInterval I K]

theorem Chain.nodup {l : List (K × V)} (h : Chain l) : l.Nodup := by
  rw [List.nodup_iff_pairwise_ne]
  refine (wf_iff_chain.2 h).2.imp_of_mem ?_
  rintro a b ha hb hab rfl
  obtain ⟨p, hp⟩ := (wf_iff_chain.2 h).1 a ha
  exact lt_irrefl _ (hab p p hp hp)

theorem ascending_nodup {l : List K} (h : Ascending l) : l.Nodup := by
  rw [List.nodup_iff_pairwise_ne]
  refine h.2.imp_of_mem ?_
  rintro a b ha hb hab rfl
  obtain ⟨p, hp⟩ := h.1 a ha
  exact lt_irrefl _ (hab p p hp hp)

/-- the entry has points on both sides of `q` -/
def around (q : Q) (e : K × V) : Bool := decide (start e.1 < start q ∧ stop q < stop e.1)

theorem cutOut_length {q : Q} (e : K × V) : (cutOut q e).length ≤ 1 + [e].countP (around q) := by
  unfold cutOut around
  by_cases h1 : ovl q e = true
  · rw [if_pos h1]
    by_cases h2 : start e.1 < start q
    · by_cases h3 : stop q < stop e.1
      · simp only [h2, h3, if_true, List.length_append, List.countP_cons, List.countP_nil, and_self, decide_true]
        cases down (start q) <;> cases up (stop q) <;> simp
      · simp only [h2, h3, if_true, if_false, List.append_nil]
        cases down (start q) <;> simp
    · simp only [h2, if_false, List.nil_append]
      split_ifs
      · cases up (stop q) <;> simp
      · simp
  · rw [if_neg h1]; simp

/-- at most one entry is split -/
theorem flatMap_cutOut_length {q : Q} (hq : start q ≤ stop q) {l : List (K × V)}
    (h : l.Pairwise (fun a b => stop a.1 ≤ start b.1)) :
    (l.flatMap (cutOut q)).length ≤ l.length + 1 := by
  have h1 : (l.flatMap (cutOut q)).length ≤ l.length + l.countP (around q) := by
    clear h
    induction l with
    | nil => simp
    | cons e l ih =>
      have := cutOut_length (q := q) e
      simp only [List.flatMap_cons, List.length_append, List.length_cons, List.countP_cons, List.countP_nil] at *
      omega
  have h2 : l.countP (around q) ≤ 1 := by
    rw [List.countP_eq_length_filter]
    have h2 := h.filter (around q)
    have h3 : ∀ x ∈ l.filter (around q), start x.1 < start q ∧ stop q < stop x.1 := by
      intro x hx; simpa [around] using (List.mem_filter.1 hx).2
    revert h2 h3
    generalize l.filter (around q) = l
    intro h2 h3
    match l, h2, h3 with
    | [], _, _ => simp
    | [_], _, _ => simp
    | a :: b :: l, h2, h3 =>
      rw [List.pairwise_cons] at h2
      have := h2.1 b (by simp)
      have := (h3 a (by simp)).2
      have := (h3 b (by simp)).1
      exfalso; order
  omega

/-! ## `NoditMap` -/

/-- how many entries a call can add at most -/
def growth : Op I K V → Nat
  | .insertStrict _ _ | .insertMergeTouching _ _ | .insertMergeTouchingIfValuesEqual _ _
  | .insertMergeOverlapping _ _ | .insertMergeTouchingOrOverlapping _ _ => 1
  | .insertOverwrite _ _ => 2
  | .cut _ => 1
  | _ => 0

namespace NoditMap
variable [BEq V] {m m' : NoditMap K V}

theorem length_le_of_entrySet (h' : WF m'.iter) {x : K × V} (hs : m'.entrySet ⊆ m.entrySet ∪ {x}) :
    m'.len ≤ m.len + 1 := by
  have := length_le_of_subset (es := x :: m.inner) (wf_iff_chain.1 h').nodup (fun a ha => by
    rcases hs ha with h | h
    · exact List.mem_cons_of_mem _ h
    · rw [h]; simp)
  simpa [len, NoditMap.iter] using this

theorem length_le_of_image (h' : WF m'.iter) {f : K × V → K × V} (hs : ∀ e ∈ m'.entrySet, ∃ d ∈ m.entrySet, e = f d) :
    m'.len ≤ m.len := by
  have := length_le_of_subset (es := m.inner.map f) (wf_iff_chain.1 h').nodup (fun a ha => by
    obtain ⟨d, hd, rfl⟩ := hs a ha
    exact List.mem_map_of_mem hd)
  simpa [len, NoditMap.iter] using this

theorem len_cut (h : WF m.iter) {q : Q} {out : List (K × V)} (hc : m.cut q = .ok (m', out)) :
    m'.len ≤ m.len + 1 := by
  by_cases hq : Valid q
  · rw [cut_ok (wf_iff_chain.1 h) (valid_iff.1 hq)] at hc
    simp only [Except.ok.injEq, Prod.mk.injEq] at hc
    obtain ⟨rfl, -⟩ := hc
    exact flatMap_cutOut_length (valid_iff.1 hq) ((wf_iff_chain.1 h).2.imp le_of_lt)
  · rw [panic_cut hq] at hc; cases hc

end NoditMap

open NoditMap in
/-- C81: a call adds at most `growth` entries: inserts 1, `insert_overwrite` 2, `cut` 1 (it can split an entry), all others
none. -/
theorem C81_call_growth [BEq V] {m m' : NoditMap K V} (h : WF m.iter) {op : Op I K V} {o : Out K V}
    (hs : m.step op = .ok (m', o)) : m'.len ≤ m.len + growth op := by
  rcases step_refines h op with ⟨-, h1⟩ | ⟨hb, m'', o', h1, h2, h3⟩
  · rw [hs] at h1; cases h1
  rw [hs] at h1
  cases h1
  have hsame : ∀ {n : Nat}, m'.entrySet = m.entrySet → m'.len ≤ m.len + n := fun {n} e => by
    have := length_le_of_image (f := id) h2 (fun x hx => ⟨x, by rw [← e]; exact hx, rfl⟩)
    omega
  cases op with
  | insertStrict k v =>
    by_cases he : ∃ e ∈ m.entrySet, Overlap e.1 k
    · exact hsame (h3.1 he).1
    · exact length_le_of_entrySet h2 (by rw [(h3.2 he).1])
  | insertMergeTouching k v =>
    by_cases he : ∃ e ∈ m.entrySet, Overlap e.1 k
    · exact hsame (h3.1 he).1
    · obtain ⟨r, -, e1, -⟩ := h3.2 he
      exact length_le_of_entrySet (x := (r, v)) h2 (by rw [e1]; exact Set.union_subset_union_left _ fun _ h => h.1)
  | insertMergeTouchingIfValuesEqual k v =>
    by_cases he : ∃ e ∈ m.entrySet, Overlap e.1 k
    · exact hsame (h3.1 he).1
    · obtain ⟨r, -, e1, -⟩ := h3.2 he
      exact length_le_of_entrySet (x := (r, v)) h2 (by rw [e1]; exact Set.union_subset_union_left _ fun _ h => h.1)
  | insertMergeOverlapping k v =>
    obtain ⟨r, -, e1, -⟩ := h3
    exact length_le_of_entrySet (x := (r, v)) h2 (by rw [e1]; exact Set.union_subset_union_left _ fun _ h => h.1)
  | insertMergeTouchingOrOverlapping k v =>
    obtain ⟨r, -, e1, -⟩ := h3
    exact length_le_of_entrySet (x := (r, v)) h2 (by rw [e1]; exact Set.union_subset_union_left _ fun _ h => h.1)
  | insertOverwrite k v =>
    obtain ⟨mc, out, m1, c1, c2, -, -, c5⟩ := insertOverwrite_spec (wf_iff_chain.1 h) (valid_iff.1 (not_not.1 hb)) v
    simp only [step, c2, bind, Except.bind, pure, Except.pure, Except.ok.injEq, Prod.mk.injEq] at hs
    obtain ⟨rfl, -⟩ := hs
    have h4 := len_cut h c1
    have h5 : m1.len ≤ mc.len + 1 :=
      length_le_of_entrySet (m := mc) (x := (k, v)) h2 (fun x hx => (c5 x).1 hx)
    simp only [growth]
    omega
  | cut q =>
    simp only [step, bind, Except.bind, pure, Except.pure] at hs
    cases hc : m.cut q with
    | error e => rw [hc] at hs; cases hs
    | ok r =>
      rw [hc] at hs
      simp only [Except.ok.injEq, Prod.mk.injEq] at hs
      obtain ⟨rfl, -⟩ := hs
      exact len_cut h (out := r.2) (by rw [hc])
  | removeOverlapping q =>
    obtain ⟨l, -, e1, -⟩ := h3
    exact length_le_of_image (f := id) h2 (fun x hx => ⟨x, by rw [e1] at hx; exact hx.1, rfl⟩)
  | overlappingMut q f =>
    classical
    refine length_le_of_image (f := fun d => if Overlap d.1 q then (d.1, f d.1 d.2) else d) h2 (fun x hx => ?_)
    rw [h3.1] at hx
    obtain ⟨d, hd, ⟨h5, rfl⟩ | ⟨h5, rfl⟩⟩ := hx
    · exact ⟨d, hd, by rw [if_pos h5]⟩
    · exact ⟨x, hd, by rw [if_neg h5]⟩
  | getAtPointMut p f =>
    classical
    refine length_le_of_image (f := fun d => if Mem p d.1 then (d.1, f d.2) else d) h2 (fun x hx => ?_)
    obtain ⟨r, -, h4, -⟩ := h3
    rw [h4] at hx
    obtain ⟨d, hd, ⟨h5, rfl⟩ | ⟨h5, rfl⟩⟩ := hx
    · exact ⟨d, hd, by rw [if_pos h5]⟩
    · exact ⟨x, hd, by rw [if_neg h5]⟩
  | iterMut f =>
    refine length_le_of_image (f := fun d => (d.1, f d.1 d.2)) h2 (fun x hx => ?_)
    rw [h3.1] at hx
    exact hx
  | overlapping q => obtain ⟨_, -, h5, -⟩ := h3; exact hsame h5
  | overlaps q => obtain ⟨_, -, h5, -⟩ := h3; exact hsame h5
  | gapsUntrimmed q => obtain ⟨_, -, h5, -⟩ := h3; exact hsame h5
  | gapsTrimmed q => obtain ⟨_, -, h5, -⟩ := h3; exact hsame h5
  | containsInterval q => obtain ⟨_, -, h5, -⟩ := h3; exact hsame h5
  | getAtPoint p => obtain ⟨_, -, h5, -⟩ := h3; exact hsame h5
  | getKeyValueAtPoint p => obtain ⟨_, -, -, h5, -⟩ := h3; exact hsame h5
  | containsPoint p => obtain ⟨_, -, h5, -⟩ := h3; exact hsame h5
  | iter => obtain ⟨_, -, h5, -⟩ := h3; exact hsame h5
  | len => obtain ⟨_, -, h5, -⟩ := h3; exact hsame h5
  | isEmpty => obtain ⟨_, -, h5, -⟩ := h3; exact hsame h5
  | firstKeyValue => obtain ⟨_, -, h5, -⟩ := h3; exact hsame h5
  | lastKeyValue => obtain ⟨_, -, h5, -⟩ := h3; exact hsame h5

/-- the demo map is well formed and the bounds are attained: `insert_overwrite` in the middle of an entry adds two -/
example : ∃ m', Demo.m.step (.insertOverwrite (Demo.iv 252 253) 5) = .ok (m', .entries [(Demo.iv 252 253, 1)]) ∧
    m'.len = Demo.m.len + 2 := ⟨_, rfl, by decide⟩
example : ∃ m' o, Demo.m.step (.cut (Demo.iv 252 253)) = .ok (m', o) ∧ m'.len = Demo.m.len + 1 := ⟨_, _, rfl, by decide⟩

open NoditMap in
theorem run_growth [BEq V] {m : NoditMap K V} (h : WF m.iter) (ops : List (Op I K V)) :
    (m.run ops).1.len ≤ m.len + (ops.map growth).sum := by
  induction ops generalizing m with
  | nil => simp [run]
  | cons op ops ih =>
    rcases step_refines h op with ⟨-, h1⟩ | ⟨-, m', o, h1, h2, -⟩
    · have := ih h
      simp only [run, h1, List.map_cons, List.sum_cons]
      omega
    · have := ih h2
      have h3 := C81_call_growth h h1
      simp only [run, h1, List.map_cons, List.sum_cons]
      omega

/-- C81: a map made by a history of calls has at most as many entries as the calls of the history can add, so at most twice
the number of calls; in particular queries and removals never make it grow. -/
theorem C81_history_growth [BEq V] (ops : List (Op I K V)) :
    (NoditMap.new.run ops).1.len ≤ (ops.map growth).sum ∧ (NoditMap.new.run ops).1.len ≤ 2 * ops.length := by
  have h := run_growth (m := (NoditMap.new : NoditMap K V)) wf_new ops
  have h0 : (NoditMap.new : NoditMap K V).len = 0 := rfl
  have hg : ∀ ops : List (Op I K V), (ops.map growth).sum ≤ 2 * ops.length := by
    intro ops
    induction ops with
    | nil => simp
    | cons op ops ih =>
      have : growth op ≤ 2 := by cases op <;> simp [growth]
      simp only [List.map_cons, List.sum_cons, List.length_cons]
      omega
  have := hg ops
  omega

/-- C81: a map over a finite type of points has at most as many entries as there are points. -/
theorem C81_finite_points [Fintype I] {m : NoditMap K V} (h : WF m.iter) : m.len ≤ Fintype.card I := by
  have hch := wf_iff_chain.1 h
  have := length_le_of_inj (l := m.inner) (es := Finset.univ.toList) (f := fun e => start e.1) hch.nodup
    (fun a ha b hb hab => by
      by_contra hne
      rcases hch.apart ha hb hne with h1 | h1
      · have := hch.1 a ha; have := hch.1 b hb; order
      · have := hch.1 a ha; have := hch.1 b hb; order)
    (fun a _ => by simp)
  simpa [NoditMap.len] using this

/-! ## Gaps -/

theorem maximalRun_up {P : I → Prop} {g : Interval I} (hg : MaximalRun P g) {y : I} (hy : up g.stop = some y) : ¬ P y := by
  intro hP
  obtain ⟨hy1, hy2⟩ := up_eq_some.1 hy
  obtain ⟨x, hx⟩ := hg.1
  have hle : g.start ≤ g.stop := by have := hx.1; have := hx.2; simp only [start, stop] at *; order
  have := hg.2.2 ⟨g.stop, y⟩ (fun p hp => by
    have h1 : g.stop ≤ p := hp.1
    have h2 : p ≤ y := hp.2
    rcases h1.eq_or_lt with h | h
    · exact hg.2.1 p ⟨by simp only [start]; order, h.ge⟩
    · rw [le_antisymm h2 (hy2 _ h)]; exact hP)
    ⟨g.stop, ⟨hle, le_refl _⟩, ⟨le_refl _, hy1.le⟩⟩ y ⟨hy1.le, le_refl _⟩
  have h3 : y ≤ g.stop := this.2
  order

theorem gap_count {es : List (K × V)} (hes : WF es) {q : Q} {l : List K} (hl : Ascending l)
    (h1 : ∀ a ∈ l, ∀ p, Mem p a → ∀ e ∈ es, ¬ Mem p e.1) (h2 : ∀ a ∈ l, Overlap a q)
    (h3 : ∀ a ∈ l, ∀ y, up (stop a) = some y → Mem y q → ∃ e ∈ es, Mem y e.1) :
    ∀ o : List (K × V), (∀ e ∈ es, Overlap e.1 q → e ∈ o) → l.length ≤ o.length + 1 := by
  intro o ho
  rcases l.eq_nil_or_concat with rfl | ⟨l', z, rfl⟩
  · simp
  rw [List.concat_eq_append] at *
  have hpw := List.pairwise_append.1 hl.2
  have hval : ∀ a ∈ l', start a ≤ stop a := fun a ha => valid_iff.1 (hl.1 a (by simp [ha]))
  have hz : start z ≤ stop z := valid_iff.1 (hl.1 z (by simp))
  obtain ⟨xz, hxz1, hxz2⟩ := h2 z (by simp)
  have key : ∀ a ∈ l', ∃ e, ∃ y, up (stop a) = some y ∧ e ∈ es ∧ Mem y e.1 ∧ Mem y q := by
    intro a ha
    have hb := hpw.2.2 a ha z (by simp)
    have hlt : stop a < start z := hb _ _ ⟨hval a ha, le_refl _⟩ ⟨le_refl _, hz⟩
    obtain ⟨y, hy, hy1, hy2, -⟩ := up_exists hlt
    obtain ⟨xa, hxa1, hxa2⟩ := h2 a (by simp [ha])
    have hyq : Mem y q := ⟨by have := hxa1.2; have := hxa2.1; order, by have := hxz1.1; have := hxz2.2; order⟩
    obtain ⟨e, he, hye⟩ := h3 a (by simp [ha]) y hy hyq
    exact ⟨e, y, hy, he, hye, hyq⟩
  have hnd : l'.Nodup := (List.nodup_append.1 (ascending_nodup hl)).1
  classical
  have hlen : l'.length ≤ o.length := by
    by_cases hne : Nonempty (K × V)
    · have key' : ∀ a, ∃ e, a ∈ l' → ∃ y, up (stop a) = some y ∧ e ∈ es ∧ Mem y e.1 ∧ Mem y q := by
        intro a
        by_cases ha : a ∈ l'
        · obtain ⟨e, he⟩ := key a ha; exact ⟨e, fun _ => he⟩
        · exact ⟨Classical.choice hne, fun h => absurd h ha⟩
      choose f hf using key'
      have hinj : ∀ a ∈ l', ∀ b ∈ l', Before a b → f a = f b → False := by
        intro a ha b hb hab hfe
        obtain ⟨y, hy, -, hye, -⟩ := hf a ha
        obtain ⟨y', hy', he', hye', -⟩ := hf b hb
        have hlt : stop a < start b := hab _ _ ⟨hval a ha, le_refl _⟩ ⟨le_refl _, hval b hb⟩
        have hu := up_eq_some.1 hy
        have hu' := up_eq_some.1 hy'
        rw [hfe] at hye
        refine h1 b (by simp [hb]) (start b) ⟨le_refl _, hval b hb⟩ _ he' ⟨?_, ?_⟩
        · have := hu.2 _ hlt; have := hye.1; order
        · have := hval b hb; have := hu'.1; have := hye'.2; order
      refine length_le_of_inj (f := f) hnd ?_ ?_
      · intro a ha b hb hfe
        by_contra hne
        rcases pairwise_or hpw.1 ha hb hne with h | h
        · exact hinj a ha b hb h hfe
        · exact hinj b hb a ha h hfe.symm
      · intro a ha
        obtain ⟨y, -, h5, h6, h7⟩ := hf a ha
        exact ho _ h5 ⟨y, h6, h7⟩
    · cases l' with
      | nil => simp
      | cons a _ => obtain ⟨e, -⟩ := key a (by simp); exact absurd ⟨e⟩ hne
  simp only [List.length_append, List.length_cons, List.length_nil]
  omega

/-- C81: between two gaps there is an entry: the gaps reported for a query are at most one more than the entries that
overlap it. -/
theorem C81_gap_count {m : NoditMap K V} (h : WF m.iter) {q : Q} (hq : Valid q) :
    ∃ untrimmed trimmed entries, m.gapsUntrimmed q = .ok untrimmed ∧ m.gapsTrimmed q = .ok trimmed ∧
      m.overlapping q = .ok entries ∧ untrimmed.length ≤ entries.length + 1 ∧ trimmed.length ≤ entries.length + 1 := by
  obtain ⟨u, hu, hua, hum⟩ := NoditMap.spec_gapsUntrimmed h hq
  obtain ⟨t, ht, hta, htm⟩ := NoditMap.spec_gapsTrimmed h hq
  obtain ⟨o, ho, hom⟩ := NoditMap.spec_overlapping h hq
  have hsub : ∀ e ∈ m.iter, Overlap e.1 q → e ∈ o := fun e he hov => (hom.2 e).2 ⟨he, hov⟩
  refine ⟨u, t, o, hu, ht, ho, ?_, ?_⟩
  · refine gap_count h hua (q := q) ?_ ?_ ?_ o hsub
    · intro a ha p hp e he hpe
      obtain ⟨i, rfl, hi, -⟩ := (hum a).1 ha
      exact hi.2.1 p (mem_ofInterval.1 hp) ⟨e, he, hpe⟩
    · intro a ha
      obtain ⟨i, rfl, -, x, hx, hxq⟩ := (hum a).1 ha
      exact ⟨x, mem_ofInterval.2 hx, hxq⟩
    · intro a ha y hy _
      obtain ⟨i, rfl, hi, -⟩ := (hum a).1 ha
      rw [stop_of] at hy
      obtain ⟨e, he, hye⟩ := not_not.1 (maximalRun_up hi hy)
      exact ⟨e, he, hye⟩
  · refine gap_count h hta (q := q) ?_ ?_ ?_ o hsub
    · intro a ha p hp e he hpe
      obtain ⟨i, rfl, g, hg, hi⟩ := (htm a).1 ha
      exact hg.2.1 p ((hi.2 p).1 (mem_ofInterval.1 hp)).1 ⟨e, he, hpe⟩
    · intro a ha
      obtain ⟨i, rfl, g, hg, ⟨x, hx⟩, hi⟩ := (htm a).1 ha
      exact ⟨x, mem_ofInterval.2 hx, ((hi x).1 hx).2⟩
    · intro a ha y hy hyq
      obtain ⟨i, rfl, g, hg, hiv, hi⟩ := (htm a).1 ha
      rw [stop_of] at hy
      have hu := up_eq_some.1 hy
      have hsi : Mem i.stop i := ⟨valid_iff.1 hiv, le_refl _⟩
      have hs := ((hi i.stop).1 hsi).1
      have hng : ¬ Mem y g := fun hyg => by
        have h5 : y ≤ i.stop := ((hi y).2 ⟨hyg, hyq⟩).2
        have := hu.1
        order
      have hge : i.stop = g.stop := by
        by_contra hne
        have h6 : i.stop < g.stop := lt_of_le_of_ne hs.2 hne
        exact hng ⟨by have := hs.1; have := hu.1; simp only [start] at *; order, hu.2 _ h6⟩
      rw [hge] at hy
      obtain ⟨e, he, hye⟩ := not_not.1 (maximalRun_up hg hy)
      exact ⟨e, he, hye⟩

example : ∃ gs, Demo.m.gapsUntrimmed (Demo.iv 2 240) = .ok gs ∧ gs.length = 3 := ⟨_, rfl, by decide⟩

/-! ## `Gqdit` -/

/-- the number of `insert`, `cut_with_identifiers` and `cut_all_identifiers` calls of a history -/
def calls : GqHist I K D → Nat
  | .new => 0
  | .insert g _ _ | .cutWithIdentifiers g _ _ | .cutAllIdentifiers g _ => calls g + 1
  | .append g other => calls g + calls other

/-- the points at which the contents can change to the next point -/
def ends : GqHist I K D → List I
  | .new => []
  | .insert g _ k => stop k :: (down (start k)).toList ++ ends g
  | .cutWithIdentifiers g _ q => stop q :: (down (start q)).toList ++ ends g
  | .cutAllIdentifiers g q => stop q :: (down (start q)).toList ++ ends g
  | .append g other => ends g ++ ends other

theorem ends_length (h : GqHist I K D) : (ends h).length ≤ 2 * calls h := by
  have hd : ∀ p : I, (down p).toList.length ≤ 1 := fun p => by cases down p <;> simp
  induction h with
  | new => simp [ends]
  | insert g _ k ih =>
    have := hd (start k)
    simp only [ends, calls, List.length_cons, List.length_append]; omega
  | cutWithIdentifiers g _ q ih =>
    have := hd (start q)
    simp only [ends, calls, List.length_cons, List.length_append]; omega
  | cutAllIdentifiers g q ih =>
    have := hd (start q)
    simp only [ends, calls, List.length_cons, List.length_append]; omega
  | append g o ih1 ih2 => simp only [ends, calls, List.length_append]; omega

theorem mem_change {k : Q} {p y : I} (hy : up p = some y) (hne : ¬ (Mem p k ↔ Mem y k)) :
    p = stop k ∨ down (start k) = some p := by
  have hu := up_eq_some.1 hy
  unfold Mem at hne
  by_cases h1 : stop k = p
  · exact Or.inl h1.symm
  by_cases h2 : start k = y
  · right; rw [h2, ← up_eq_some_iff_down]; exact hy
  exfalso
  apply hne
  constructor
  · rintro ⟨h3, h4⟩
    exact ⟨by have := hu.1; order, hu.2 _ (lt_of_le_of_ne h4 (Ne.symm h1))⟩
  · rintro ⟨h3, h4⟩
    refine ⟨?_, by have := hu.1; order⟩
    by_contra hc
    have := hu.2 _ (not_le.1 hc)
    exact h2 (by order)

theorem idsAt_change (h : GqHist I K D) {p y : I} (hy : up p = some y) (hne : h.idsAt p ≠ h.idsAt y) : p ∈ ends h := by
  induction h with
  | new => exact absurd rfl hne
  | insert g ids k ih =>
    by_cases hc : Mem p k ↔ Mem y k
    · simp only [ends, List.cons_append, List.mem_cons, List.mem_append]
      right; right
      apply ih
      intro he
      apply hne
      by_cases hm : Mem p k
      · simp [GqHist.idsAt, hm, hc.1 hm, he]
      · simp [GqHist.idsAt, hm, mt hc.2 hm, he]
    · rcases mem_change hy hc with h1 | h1
      · simp [ends, h1]
      · simp [ends, h1]
  | cutWithIdentifiers g ids k ih =>
    by_cases hc : Mem p k ↔ Mem y k
    · simp only [ends, List.cons_append, List.mem_cons, List.mem_append]
      right; right
      apply ih
      intro he
      apply hne
      by_cases hm : Mem p k
      · simp [GqHist.idsAt, hm, hc.1 hm, he]
      · simp [GqHist.idsAt, hm, mt hc.2 hm, he]
    · rcases mem_change hy hc with h1 | h1
      · simp [ends, h1]
      · simp [ends, h1]
  | cutAllIdentifiers g k ih =>
    by_cases hc : Mem p k ↔ Mem y k
    · simp only [ends, List.cons_append, List.mem_cons, List.mem_append]
      right; right
      apply ih
      intro he
      apply hne
      by_cases hm : Mem p k
      · simp [GqHist.idsAt, hm, hc.1 hm]
      · simp [GqHist.idsAt, hm, mt hc.2 hm, he]
    · rcases mem_change hy hc with h1 | h1
      · simp [ends, h1]
      · simp [ends, h1]
  | append g o ih1 ih2 =>
    simp only [ends, List.mem_append]
    by_cases h1 : g.idsAt p = g.idsAt y
    · by_cases h2 : o.idsAt p = o.idsAt y
      · exact absurd (by simp [GqHist.idsAt, h1, h2]) hne
      · exact Or.inr (ih2 h2)
    · exact Or.inl (ih1 h1)

open Gqdit in
/-- C81: a `Gqdit` stores at most two intervals more for each call that changes it, whatever the number of identifiers: after
`n` calls (also those of the `Gqdit`s appended to it) at most `2n + 1` intervals. -/
theorem C81_gqdit_size [DecidableEq D] {h : GqHist I K D} {g : Gqdit K D} (hg : eval h = .ok g) :
    g.inner.len ≤ 2 * calls h + 1 := by
  have hr := rep_of_eval hg
  have hch : Chain g.inner.inner := wf_iff_chain.1 hr.wf
  have hnd := hch.nodup
  have hel := ends_length h
  unfold NoditMap.len
  generalize hl : g.inner.inner = l at hch hnd
  rcases l.eq_nil_or_concat with rfl | ⟨l', z, rfl⟩
  · simp
  rw [List.concat_eq_append] at *
  have hpw := List.pairwise_append.1 (wf_iff_chain.2 hch).2
  have hin : ∀ a ∈ l' ++ [z], a ∈ g.inner.inner := fun a ha => by rw [hl]; exact ha
  have : l'.length ≤ (ends h).length := by
    refine length_le_of_inj (f := fun e => stop e.1) (List.nodup_append.1 hnd).1 ?_ ?_
    · intro a ha b hb hab
      by_contra hne
      have hva := hch.1 a (by simp [ha])
      have hvb := hch.1 b (by simp [hb])
      rcases pairwise_or hpw.1 ha hb hne with h1 | h1
      · have := h1 _ _ ⟨hva, le_refl _⟩ ⟨hvb, le_refl _⟩
        order
      · have := h1 _ _ ⟨hvb, le_refl _⟩ ⟨hva, le_refl _⟩
        order
    · intro a ha
      have hva := hch.1 a (by simp [ha])
      have hvz := hch.1 z (by simp)
      have hlt := hpw.2.2 a ha z (by simp) _ _ ⟨hva, le_refl _⟩ ⟨le_refl _, hvz⟩
      obtain ⟨y, hy, -⟩ := up_exists hlt
      refine idsAt_change h hy fun he => ?_
      obtain ⟨i, hi⟩ := hr.keys a (hin a (by simp [ha]))
      have ha' : ((ofInterval i : K), a.2) ∈ g.inner.inner := by
        have := hin a (by simp [ha]); rw [← hi]; exact this
      have hm := hr.maximal ha'
      rw [hi, stop_of] at hy he
      refine maximalRun_up hm hy ?_
      rw [← he]
      refine hm.2.1 i.stop ⟨?_, le_refl _⟩
      have := hva
      rw [hi, start_of, stop_of] at this
      exact this
  simp only [List.length_append, List.length_cons, List.length_nil]
  omega

/-- the bound is attained: one `insert` inside the range makes three intervals -/
example : ∃ g : Gqdit (Interval Demo.U8) Nat, Gqdit.eval (.insert .new {1} (Demo.iv 3 5) : GqHist Demo.U8 _ _) = .ok g ∧
    g.inner.len = 2 * 1 + 1 := ⟨_, rfl, by decide⟩

/-! ## `ZosditMap` -/

/-- the call is an `insert_strict_back` -/
def isInsert : ZOp I K V → Bool
  | .insertStrictBack _ _ _ => true
  | _ => false

open ZosditMap in
theorem zstep_growth {m : ZosditMap K V} (h : Good m) (op : ZOp I K V) :
    m.step op = .error .invalidInterval ∨ ∃ m' o, m.step op = .ok (m', o) ∧ Good m' ∧
      m'.iter.length ≤ m.iter.length + (if isInsert op then 1 else 0) + (if op.isCut then 1 else 0) := by
  classical
  rcases step_ok h op with ⟨-, h1⟩ | ⟨hb, m', o, h1, h2, -⟩
  · exact Or.inl h1
  right
  refine ⟨m', o, h1, h2, ?_⟩
  cases op with
  | insertStrictBack k v pick =>
    have hk := valid_iff.1 (not_not.1 hb)
    simp only [isInsert, ZOp.isCut, if_true, Bool.false_eq_true, if_false]
    rcases insert_step h hk v pick with ⟨-, e⟩ | ⟨-, m'', l1, k', l2, e1, -, e3, e4, -⟩
    · simp only [step, e, bind, Except.bind, pure, Except.pure, Except.ok.injEq, Prod.mk.injEq] at h1
      obtain ⟨rfl, -⟩ := h1
      omega
    · simp only [step, e1, bind, Except.bind, pure, Except.pure, Except.ok.injEq, Prod.mk.injEq] at h1
      obtain ⟨rfl, -⟩ := h1
      simp only [e3, e4, List.length_append, List.length_cons]; omega
  | removeLastValueAtPoint p =>
    simp only [isInsert, ZOp.isCut, Bool.false_eq_true, if_false]
    rcases last_ok h.inv p with ⟨-, e, -⟩ | ⟨v, m'', l1, k, l2, -, e, -, e3, e4, -⟩
    · simp only [step, e, bind, Except.bind, pure, Except.pure, Except.ok.injEq, Prod.mk.injEq] at h1
      obtain ⟨rfl, -⟩ := h1
      omega
    · simp only [step, e, bind, Except.bind, pure, Except.pure, Except.ok.injEq, Prod.mk.injEq] at h1
      obtain ⟨rfl, -⟩ := h1
      simp only [e3, e4, List.length_append, List.length_cons]; omega
  | cut q =>
    have hq := valid_iff.1 (not_not.1 hb)
    simp only [isInsert, ZOp.isCut, if_true, Bool.false_eq_true, if_false]
    rcases cut_ok h.inv hq h.len with ⟨-, -, e⟩ | ⟨-, m'', e, e2, -, -⟩
    · simp only [step, e, bind, Except.bind, pure, Except.pure, Except.ok.injEq, Prod.mk.injEq] at h1
      obtain ⟨rfl, -⟩ := h1
      omega
    · simp only [step, e, bind, Except.bind, pure, Except.pure, Except.ok.injEq, Prod.mk.injEq] at h1
      obtain ⟨rfl, -⟩ := h1
      rw [e2]
      exact flatMap_cutOut_length hq h.inv.flat.2

open ZosditMap in
/-- C81: after a history with `i` inserts and `c` cuts a `ZosditMap` has at most `i + c` entries. -/
theorem C81_zosdit_size (ops : List (ZOp I K V)) :
    (after ops).iter.length ≤ ops.countP isInsert + ops.countP ZOp.isCut := by
  have key : ∀ (ops : List (ZOp I K V)) {m : ZosditMap K V}, Good m →
      (m.run ops).1.iter.length ≤ m.iter.length + ops.countP isInsert + ops.countP ZOp.isCut := by
    intro ops
    induction ops with
    | nil => intro m _; simp [run]
    | cons op ops ih =>
      intro m h
      rcases zstep_growth h op with h1 | ⟨m', o, h1, h2, h3⟩
      · have := ih h
        simp only [run, h1, List.countP_cons]
        omega
      · have := ih h2
        simp only [run, h1, List.countP_cons]
        omega
  have h := key ops (good_new (K := K) (V := V) (I := I))
  have h0 : (ZosditMap.new : ZosditMap K V).iter.length = 0 := rfl
  unfold after
  omega

/-- the bound is attained -/
example : (ZosditMap.after [.insertStrictBack (Demo.iv 0 20) 1 0, .insertStrictBack (Demo.iv 40 40) 2 0, .cut (Demo.iv 5 5),
    .insertStrictBack (Demo.iv 40 40) 3 0] : ZosditMap (Interval Demo.U8) Nat).iter =
    [(Demo.iv 0 4, 1), (Demo.iv 6 20, 1), (Demo.iv 40 40, 2), (Demo.iv 40 40, 3)] := by
  decide

/-! ## `NoditSet` -/

/-- the call on the map inside -/
def mapOp : SetOp I K → Op I K Unit
  | .insertStrict k => .insertStrict k ()
  | .insertMergeTouching k => .insertMergeTouching k ()
  | .insertMergeOverlapping k => .insertMergeOverlapping k ()
  | .insertMergeTouchingOrOverlapping k => .insertMergeTouchingOrOverlapping k ()
  | .insertOverwrite k => .insertOverwrite k ()
  | .cut q => .cut q
  | .removeOverlapping q => .removeOverlapping q

theorem set_step {s : NoditSet K} {op : SetOp I K} : s.step op = (s.inner.step (mapOp op)).map (fun r => ⟨r.1⟩) := by
  cases op
  all_goals
    simp only [NoditSet.step, mapOp, NoditMap.step, NoditSet.insertStrict, NoditSet.insertMergeTouching,
      NoditSet.insertMergeOverlapping, NoditSet.insertMergeTouchingOrOverlapping, NoditSet.insertOverwrite, NoditSet.cut,
      NoditSet.removeOverlapping, bind, Except.bind, pure, Except.pure, Except.map]
    split <;> rename_i h
    · split at h
      · cases h; rfl
      · cases h
    · split at h
      · cases h
      · cases h; rfl

/-- C81: the set's inserts add at most one interval, `insert_overwrite` two, `cut` one, `remove_overlapping` none. -/
theorem C81_set_growth {s s' : NoditSet K} (h : Ascending s.iter) {op : SetOp I K} (hs : s.step op = .ok s') :
    s'.len ≤ s.len + growth (mapOp op) := by
  rw [set_step] at hs
  cases h1 : s.inner.step (mapOp op) with
  | error e => rw [h1] at hs; cases hs
  | ok r =>
    rw [h1] at hs
    cases hs
    exact C81_call_growth (o := r.2) (NoditSet.wf_iff.2 h) h1

/-- C81: also along histories. -/
theorem C81_set_history (ops : List (SetOp I K)) :
    ((NoditSet.new : NoditSet K).run ops).len ≤ (ops.map (fun op => growth (mapOp op))).sum := by
  have : ∀ (m : NoditMap K Unit), ((⟨m⟩ : NoditSet K).run ops).inner = (m.run (ops.map mapOp)).1 := by
    induction ops with
    | nil => intro m; rfl
    | cons op ops ih =>
      intro m
      simp only [NoditSet.run, NoditMap.run, List.map_cons, set_step]
      cases h1 : m.step (mapOp op) with
      | error e => simpa [Except.map] using ih m
      | ok r => simpa [Except.map] using ih r.1
  have h2 := (C81_history_growth (K := K) (V := Unit) (ops.map mapOp)).1
  unfold NoditSet.len
  rw [NoditSet.new, this NoditMap.new]
  rw [List.map_map] at h2
  exact h2

end Nodit
