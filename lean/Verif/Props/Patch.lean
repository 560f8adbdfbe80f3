import Verif.Props.RangeUpdate
import Verif.Props.Rollback
import Verif.Props.Algebra
/-!
# C130: differences between maps, and patches

A client compares two `NoditMap`s with point lookups and gets a patch: the entries to remove and the entries to add. It applies patches
(on a clone) with `remove_overlapping` and `insert_strict`, and reports a conflict if an entry to remove is not there as it should be or
an insert is refused.
-/
set_option linter.unusedSectionVars false
namespace Nodit.Patch
open Spec PointType InclusiveInterval NoditMap

variable {I K V : Type} [PointType I] [IntervalType I K] [LawfulPoint I] [LawfulInterval I K] [DecidableEq K] [DecidableEq V]

/-- client code, models no lines of `/repo`: those of the entries that the map does not have, found by
`map.get_key_value_at_point(key.start()) != Ok((key, value))` -/
def missing (b : NoditMap K V) : List (K × V) → Res (List (K × V))
  | [] => pure []
  | e :: l => do
    let r ← b.getKeyValueAtPoint (start e.1)
    let rest ← missing b l
    pure (match r with | .ok e' => if e' = e then rest else e :: rest | .error _ => e :: rest)

/-- what to remove and what to add. A client, models no lines of `/repo`. -/
structure Diff (K V : Type) where
  removed : List (K × V)
  added : List (K × V)

/-- client code, models no lines of `/repo` -/
def diff (a b : NoditMap K V) : Res (Diff K V) := do
  let removed ← missing b a.iter
  let added ← missing a b.iter
  pure ⟨removed, added⟩

/-- client code, models no lines of `/repo`: the first half of applying a patch; `none` is a conflict -/
def removeAll (m : NoditMap K V) : List (K × V) → Res (Option (NoditMap K V))
  | [] => pure (some m)
  | e :: l => do
    let (m, out) ← m.removeOverlapping e.1
    if out = [e] then removeAll m l else pure none

/-- client code, models no lines of `/repo`: the second half; `none` is a conflict -/
def addAll (m : NoditMap K V) : List (K × V) → Res (Option (NoditMap K V))
  | [] => pure (some m)
  | e :: l => do
    match ← m.insertStrict e.1 e.2 with
    | (m, .ok ()) => addAll m l
    | (_, .error _) => pure none

/-- client code, models no lines of `/repo` -/
def apply (m : NoditMap K V) (d : Diff K V) : Res (Option (NoditMap K V)) := do
  match ← removeAll m d.removed with
  | some m => addAll m d.added
  | none => pure none

/-- the patch back. A client, models no lines of `/repo`. -/
def Diff.reverse (d : Diff K V) : Diff K V := ⟨d.added, d.removed⟩

theorem missing_spec {b : NoditMap K V} (hb : WF b.iter) (l : List (K × V)) (hl : ∀ e ∈ l, Valid e.1) :
    missing b l = .ok (l.filter fun e => decide (e ∉ b.iter)) := by
  induction l with
  | nil => rfl
  | cons e l ih =>
    obtain ⟨r, h1, h2⟩ := (C03_point_lookup hb (start e.1)).1
    have hm : Mem (start e.1) e.1 := ⟨le_refl _, valid_iff.1 (hl e (by simp))⟩
    simp only [missing, bind, Except.bind, pure, Except.pure, h1, ih fun d hd => hl d (by simp [hd])]
    by_cases he : e ∈ b.iter
    · rw [(h2 e).2 ⟨he, hm⟩, List.filter_cons_of_neg (by simpa using he)]
      simp
    · rw [List.filter_cons_of_pos (by simpa using he)]
      cases r with
      | error g => rfl
      | ok e' => simp only; rw [if_neg fun (h : e' = e) => he (h ▸ ((h2 e').1 rfl).1)]

theorem wf_filter {l : List (K × V)} (h : WF (I := I) l) (p : K × V → Bool) : WF (I := I) (l.filter p) :=
  ⟨fun e he => h.1 e (List.mem_filter.1 he).1, h.2.sublist List.filter_sublist⟩

theorem wf_unique {l : List (K × V)} (h : WF (I := I) l) {e d : K × V} (he : e ∈ l) (hd : d ∈ l) (ho : Overlap (I := I) e.1 d.1) : e = d :=
  entries_disjoint (m := ⟨l⟩) h e he d hd ho

theorem overlap_self {k : K} (h : Valid (I := I) k) : Overlap (I := I) k k := by obtain ⟨p, hp⟩ := h; exact ⟨p, hp, hp⟩

theorem wf_nodup {l : List (K × V)} (h : WF (I := I) l) : l.Nodup := by
  refine (h.2.imp_of_mem (S := fun a b => a ≠ b) ?_)
  intro a b ha _ hab he
  obtain ⟨p, hp⟩ := h.1 a ha
  exact lt_irrefl p (hab p p hp (he ▸ hp))

theorem remove_spec {m : NoditMap K V} (h : WF m.iter) {e : K × V} (he : Valid e.1) :
    ∃ m' out, m.removeOverlapping e.1 = .ok (m', out) ∧ WF m'.iter ∧ (out = [e] ↔ e ∈ m.iter) ∧
      (e ∈ m.iter → ∀ d, d ∈ m'.iter ↔ d ∈ m.iter ∧ d ≠ e) := by
  obtain ⟨m', out, h1, h2, h3, h5, h4⟩ := spec_removeOverlapping h he
  refine ⟨m', out, h1, h2, ⟨fun ho => ?_, fun hm => ?_⟩, fun hm d => ?_⟩
  · have := (h4 e).1 (by rw [ho]; simp)
    exact this.1
  · have hall : ∀ d ∈ out, d = e := fun d hd => wf_unique h ((h4 d).1 hd).1 hm ((h4 d).1 hd).2
    have hin : e ∈ out := (h4 e).2 ⟨hm, overlap_self he⟩
    have hnd : out.Nodup := wf_nodup h5
    cases out with
    | nil => simp at hin
    | cons x t =>
      cases t with
      | nil => rw [hall x (by simp)]
      | cons y t =>
        exfalso
        rw [List.nodup_cons] at hnd
        exact hnd.1 (by rw [hall x (by simp), hall y (by simp)]; simp)
  · have := Set.ext_iff.1 h3 d
    simp only [Set.mem_ofPred_eq] at this
    refine this.trans (and_congr_right fun hd => not_congr ⟨fun ho => wf_unique h hd hm ho, fun hde => by rw [hde]; exact overlap_self he⟩)

theorem removeAll_spec (l : List (K × V)) (hl : l.Nodup) (hv : ∀ e ∈ l, Valid e.1) {m : NoditMap K V} (h : WF m.iter) :
    ((∀ e ∈ l, e ∈ m.iter) → ∃ m', removeAll m l = .ok (some m') ∧ WF m'.iter ∧ ∀ d, d ∈ m'.iter ↔ d ∈ m.iter ∧ d ∉ l) ∧
    ((∃ e ∈ l, e ∉ m.iter) → removeAll m l = .ok none) := by
  induction l generalizing m with
  | nil => exact ⟨fun _ => ⟨m, rfl, h, by simp⟩, by simp⟩
  | cons e l ih =>
    obtain ⟨m1, out, h1, h2, h3, h4⟩ := remove_spec h (hv e (by simp))
    obtain ⟨hn, hl'⟩ := List.nodup_cons.1 hl
    simp only [removeAll, h1, bind, Except.bind, pure, Except.pure]
    by_cases he : e ∈ m.iter
    · rw [if_pos (h3.2 he)]
      have h4 := h4 he
      obtain ⟨i1, i2⟩ := ih hl' (fun d hd => hv d (by simp [hd])) h2
      have hsame : ∀ d ∈ l, d ∈ m1.iter ↔ d ∈ m.iter := fun d hd =>
        (h4 d).trans ⟨And.left, fun h => ⟨h, fun h' => hn (h' ▸ hd)⟩⟩
      refine ⟨fun ha => ?_, fun hex => i2 ?_⟩
      · obtain ⟨m', e1, e2, e3⟩ := i1 fun d hd => (hsame d hd).2 (ha d (by simp [hd]))
        exact ⟨m', e1, e2, fun d => by rw [e3, h4, List.mem_cons]; tauto⟩
      · obtain ⟨d, hd, hdn⟩ := hex
        rcases List.mem_cons.1 hd with rfl | hd
        · exact absurd he hdn
        · exact ⟨d, hd, fun h => hdn ((hsame d hd).1 h)⟩
    · rw [if_neg fun h => he (h3.1 h)]
      exact ⟨fun ha => absurd (ha e (by simp)) he, fun _ => rfl⟩

theorem addAll_spec (l : List (K × V)) (hl : WF (I := I) l) {m : NoditMap K V} (h : WF m.iter) :
    ((∀ e ∈ l, ∀ d ∈ m.iter, ¬ Overlap d.1 e.1) → ∃ m', addAll m l = .ok (some m') ∧ WF m'.iter ∧ ∀ d, d ∈ m'.iter ↔ d ∈ m.iter ∨ d ∈ l) ∧
    ((∃ e ∈ l, ∃ d ∈ m.iter, Overlap d.1 e.1) → addAll m l = .ok none) := by
  induction l generalizing m with
  | nil => exact ⟨fun _ => ⟨m, rfl, h, by simp⟩, by simp⟩
  | cons e l ih =>
    obtain ⟨m1, r, h1, h2, h3, h4⟩ := spec_insertStrict h (hl.1 e (by simp)) e.2
    have hl' : WF (I := I) l := ⟨fun d hd => hl.1 d (by simp [hd]), (List.pairwise_cons.1 hl.2).2⟩
    have hfar : ∀ d ∈ l, ¬ Overlap (I := I) e.1 d.1 := by
      intro d hd ⟨p, hp, hq⟩
      exact lt_irrefl p ((List.pairwise_cons.1 hl.2).1 d hd p p hp hq)
    simp only [addAll, h1, bind, Except.bind, pure, Except.pure]
    by_cases ho : ∃ d ∈ m.entrySet, Overlap d.1 e.1
    · obtain ⟨rfl, rfl⟩ := h3 ho
      obtain ⟨d, hd, hdo⟩ := ho
      exact ⟨fun ha => absurd hdo (ha e (by simp) d hd), fun _ => rfl⟩
    · obtain ⟨e1, rfl⟩ := h4 ho
      have hmem : ∀ d, d ∈ m1.iter ↔ d ∈ m.iter ∨ d = e := fun d => by
        have := Set.ext_iff.1 e1 d
        rw [or_comm]; simpa [NoditMap.entrySet] using this
      obtain ⟨i1, i2⟩ := ih hl' h2
      refine ⟨fun ha => ?_, fun hex => i2 ?_⟩
      · obtain ⟨m', f1, f2, f3⟩ := i1 fun d hd x hx => by
          rcases (hmem x).1 hx with hx | rfl
          · exact ha d (by simp [hd]) x hx
          · exact hfar d hd
        exact ⟨m', f1, f2, fun d => by rw [f3, hmem, List.mem_cons]; tauto⟩
      · obtain ⟨d, hd, x, hx, hxo⟩ := hex
        rcases List.mem_cons.1 hd with rfl | hd
        · exact absurd ⟨x, hx, hxo⟩ ho
        · exact ⟨d, hd, x, (hmem x).2 (Or.inl hx), hxo⟩

/-- A patch whose lists are those of maps. A specification, models no lines of `/repo`. -/
def Diff.WF (d : Diff K V) : Prop := Spec.WF (I := I) d.removed ∧ Spec.WF (I := I) d.added

/-- **C130**: comparing two maps never panics and gives exactly the entries of each that the other does not have, in order -/
theorem C130_diff {a b : NoditMap K V} (ha : WF a.iter) (hb : WF b.iter) :
    ∃ d, diff a b = .ok d ∧ d.WF (I := I) ∧ (∀ e, e ∈ d.removed ↔ e ∈ a.iter ∧ e ∉ b.iter) ∧ (∀ e, e ∈ d.added ↔ e ∈ b.iter ∧ e ∉ a.iter) ∧
      (d.removed = [] ∧ d.added = [] ↔ a = b) := by
  refine ⟨_, by rw [diff, missing_spec hb _ ha.1, bind, Except.instMonad]; simp only [Except.bind]; rw [missing_spec ha _ hb.1]; rfl,
    ⟨wf_filter ha _, wf_filter hb _⟩, by simp, by simp, ?_⟩
  constructor
  · rintro ⟨h1, h2⟩
    refine NoditMap.ext_entries ha hb fun e => ⟨fun he => ?_, fun he => ?_⟩
    · by_contra hn
      exact List.ne_nil_of_mem (List.mem_filter.2 ⟨he, by simpa using hn⟩) h1
    · by_contra hn
      exact List.ne_nil_of_mem (List.mem_filter.2 ⟨he, by simpa using hn⟩) h2
  · rintro rfl
    simp

/-- **C130**: applying a patch never panics. It succeeds exactly if the map has every entry to remove and no other entry of the map
meets an entry to add; the result then has the added entries and the map's others. -/
theorem C130_apply {m : NoditMap K V} (h : WF m.iter) {d : Diff K V} (hd : d.WF (I := I)) :
    ((∀ e ∈ d.removed, e ∈ m.iter) ∧ (∀ e ∈ d.added, ∀ x ∈ m.iter, Overlap x.1 e.1 → x ∈ d.removed) →
      ∃ m', apply m d = .ok (some m') ∧ WF m'.iter ∧ ∀ x, x ∈ m'.iter ↔ x ∈ m.iter ∧ x ∉ d.removed ∨ x ∈ d.added) ∧
    (¬ ((∀ e ∈ d.removed, e ∈ m.iter) ∧ (∀ e ∈ d.added, ∀ x ∈ m.iter, Overlap x.1 e.1 → x ∈ d.removed)) → apply m d = .ok none) := by
  obtain ⟨r1, r2⟩ := removeAll_spec d.removed (wf_nodup hd.1) hd.1.1 h
  by_cases hall : ∀ e ∈ d.removed, e ∈ m.iter
  · obtain ⟨m1, e1, e2, e3⟩ := r1 hall
    obtain ⟨a1, a2⟩ := addAll_spec d.added hd.2 e2
    have heq : apply m d = addAll m1 d.added := by simp only [apply, e1, bind, Except.bind]
    rw [heq]
    refine ⟨fun hc => ?_, fun hc => ?_⟩
    · obtain ⟨m', f1, f2, f3⟩ := a1 fun e he x hx ho => ((e3 x).1 hx).2 (hc.2 e he x ((e3 x).1 hx).1 ho)
      exact ⟨m', f1, f2, fun x => by rw [f3, e3]⟩
    · apply a2
      by_contra hn
      refine hc ⟨hall, fun e he x hx ho => ?_⟩
      by_contra hx'
      exact hn ⟨e, he, x, (e3 x).2 ⟨hx, hx'⟩, ho⟩
  · refine ⟨fun hc => absurd hc.1 hall, fun _ => ?_⟩
    push Not at hall
    simp only [apply, r2 hall, bind, Except.bind, pure, Except.pure]

/-- **C130**: the patch between two maps turns the first into the second, and reversed the second into the first -/
theorem C130_patch {a b : NoditMap K V} (ha : WF a.iter) (hb : WF b.iter) {d : Diff K V} (hd : diff a b = .ok d) :
    apply a d = .ok (some b) ∧ apply b d.reverse = .ok (some a) := by
  have key : ∀ {a b : NoditMap K V} {d : Diff K V}, WF a.iter → WF b.iter → d.WF (I := I) → (∀ e, e ∈ d.removed ↔ e ∈ a.iter ∧ e ∉ b.iter) →
      (∀ e, e ∈ d.added ↔ e ∈ b.iter ∧ e ∉ a.iter) → apply a d = .ok (some b) := by
    intro a b d ha hb hw h1 h2
    obtain ⟨m', e1, e2, e3⟩ := (C130_apply ha hw).1 ⟨fun e he => ((h1 e).1 he).1, fun e he x hx ho => (h1 x).2 ⟨hx, fun hxb => by
      have := wf_unique hb hxb ((h2 e).1 he).1 ho
      exact ((h2 e).1 he).2 (this ▸ hx)⟩⟩
    rw [e1, NoditMap.ext_entries e2 hb fun x => by rw [e3, h1, h2]; tauto]
  obtain ⟨d', e1, e2, e3, e4, -⟩ := C130_diff ha hb
  rw [hd] at e1; cases e1
  exact ⟨key ha hb e2 e3 e4, key hb ha ⟨e2.2, e2.1⟩ e4 e3⟩

/-- **C130**: two patches to the same map that touch different points can be applied in either order, with the same result -/
theorem C130_merge {a b c : NoditMap K V} (ha : WF a.iter) (hb : WF b.iter) (hc : WF c.iter) {d e : Diff K V} (hd : diff a b = .ok d)
    (he : diff a c = .ok e) (hsep : ∀ x ∈ d.removed ++ d.added, ∀ y ∈ e.removed ++ e.added, ¬ Overlap (I := I) x.1 y.1) :
    ∃ m, apply b e = .ok (some m) ∧ apply c d = .ok (some m) ∧ WF m.iter ∧
      (∀ x, x ∈ m.iter ↔ (x ∈ a.iter ∧ x ∈ b.iter ∧ x ∈ c.iter) ∨ (x ∈ b.iter ∧ x ∉ a.iter) ∨ x ∈ c.iter ∧ x ∉ a.iter) := by
  obtain ⟨d', e1, d1, d2, d3, -⟩ := C130_diff ha hb
  rw [hd] at e1; cases e1
  obtain ⟨e', e1, f1, f2, f3, -⟩ := C130_diff ha hc
  rw [he] at e1; cases e1
  have key : ∀ {a b c : NoditMap K V} {d e : Diff K V}, WF a.iter → WF b.iter → WF c.iter → e.WF (I := I) →
      (∀ x, x ∈ d.removed ↔ x ∈ a.iter ∧ x ∉ b.iter) → (∀ x, x ∈ d.added ↔ x ∈ b.iter ∧ x ∉ a.iter) →
      (∀ x, x ∈ e.removed ↔ x ∈ a.iter ∧ x ∉ c.iter) → (∀ x, x ∈ e.added ↔ x ∈ c.iter ∧ x ∉ a.iter) →
      (∀ x ∈ d.removed ++ d.added, ∀ y ∈ e.removed ++ e.added, ¬ Overlap (I := I) x.1 y.1) →
      ∃ m, apply b e = .ok (some m) ∧ WF m.iter ∧
        ∀ x, x ∈ m.iter ↔ (x ∈ a.iter ∧ x ∈ b.iter ∧ x ∈ c.iter) ∨ (x ∈ b.iter ∧ x ∉ a.iter) ∨ x ∈ c.iter ∧ x ∉ a.iter := by
    intro a b c d e ha hb hc hw h1 h2 h3 h4 hsep
    have hself : ∀ {l : List (K × V)}, WF (I := I) l → ∀ x ∈ l, Overlap (I := I) x.1 x.1 := fun hl x hx => overlap_self (hl.1 x hx)
    have hr : ∀ x ∈ e.removed, x ∈ b.iter := by
      intro x hx
      by_contra hn
      have hxa := ((h3 x).1 hx).1
      exact hsep x (List.mem_append_left _ ((h1 x).2 ⟨hxa, hn⟩)) x (List.mem_append_left _ hx) (hself ha x hxa)
    obtain ⟨m, e1, e2, e3⟩ := (C130_apply hb hw).1 ⟨hr, fun y hy x hx ho => by
      by_cases hxa : x ∈ a.iter
      · refine (h3 x).2 ⟨hxa, fun hxc => ?_⟩
        have := wf_unique hc hxc ((h4 y).1 hy).1 ho
        exact ((h4 y).1 hy).2 (this ▸ hxa)
      · exact absurd ho (hsep x (List.mem_append_right _ ((h2 x).2 ⟨hx, hxa⟩)) y (List.mem_append_right _ hy))⟩
    refine ⟨m, e1, e2, fun x => ?_⟩
    rw [e3, h3, h4]
    have hbc : x ∈ b.iter → x ∉ a.iter → x ∈ c.iter → False := fun hb' hna hc' =>
      hsep x (List.mem_append_right _ ((h2 x).2 ⟨hb', hna⟩)) x (List.mem_append_right _ ((h4 x).2 ⟨hc', hna⟩)) (hself hb x hb')
    tauto
  obtain ⟨m, k1, k2, k3⟩ := key ha hb hc f1 d2 d3 f2 f3 hsep
  obtain ⟨m', k4, k5, k6⟩ := key ha hc hb d1 f2 f3 d2 d3 fun x hx y hy ⟨p, hp, hq⟩ => hsep y hy x hx ⟨p, hq, hp⟩
  have : m' = m := NoditMap.ext_entries k5 k2 fun x => by rw [k6, k3]; tauto
  exact ⟨m, k1, this ▸ k4, k2, k3⟩
end Nodit.Patch
