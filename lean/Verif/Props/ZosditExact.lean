import Verif.ZSpec
import Verif.Props.ZosditProps
/-!
# C62 - C67: what `ZosditMap` does, exactly

Where C39, C40, C42 and C43 (the documented behaviour) fail, these properties say what happens instead, for all
histories. The vocabulary is in `Verif/ZSpec.lean`.
-/
set_option linter.unusedSectionVars false
namespace Nodit
open Spec PointType ZosditMap

variable {I K Q V : Type} [PointType I] [IntervalType I K] [IntervalType I Q]
  [LawfulPoint I] [LawfulInterval I K]

namespace ZosditMap

omit [LawfulPoint I] [LawfulInterval I K] in
/-- the last element with a property is unique -/
theorem last_unique {α β : Type} {P : α × β → Prop} {l1 l2 l1' l2' : List (α × β)} {k k' : α} {v v' : β}
    (h : l1 ++ (k, v) :: l2 = l1' ++ (k', v') :: l2') (h1 : P (k, v)) (h2 : ∀ e ∈ l2, ¬ P e) (h3 : P (k', v'))
    (h4 : ∀ e ∈ l2', ¬ P e) : k = k' ∧ v = v' ∧ l1 = l1' ∧ l2 = l2' := by
  rcases List.append_eq_append_iff.1 h with ⟨a, rfl, h10⟩ | ⟨a, rfl, h10⟩
  · cases a with
    | nil => simp_all
    | cons x a =>
      simp only [List.cons_append, List.cons.injEq] at h10
      exact absurd h3 (h2 (k', v') (by rw [h10.2]; simp))
  · cases a with
    | nil => simp_all
    | cons x a =>
      simp only [List.cons_append, List.cons.injEq] at h10
      exact absurd h1 (h4 (k, v) (by rw [h10.2]; simp))

omit [LawfulPoint I] [LawfulInterval I K] in
theorem lookup_exact {m : ZosditMap K V} (hg : ZInv m.inner) (p : I) :
    (NotFound m.iter p ∧ m.getLastValueAtPoint p = none ∧ m.removeLastValueAtPoint p = .ok (m, none)) ∨
    (¬ NotFound m.iter p ∧ ∃ v m' l1 k l2, m.getLastValueAtPoint p = some v ∧ m.removeLastValueAtPoint p = .ok (m', some v) ∧
      m.iter = l1 ++ (k, v) :: l2 ∧ m'.iter = l1 ++ l2 ∧ Mem p k ∧ (∀ e ∈ l2, ¬ Mem p e.1) ∧ m'.len = m.len ∧
      ZInv m'.inner ∧ (NoDup m.inner → NoDup m'.inner)) := by
  have hv := hg.flat.1
  rcases last_ok hg p with ⟨h0, h0', h1⟩ | ⟨w, m', l1, k, l2, h1, h1', h2, h3, h3', h4, h6, h7, h8, h5⟩
  · left
    refine ⟨?_, h0, h0'⟩
    rcases h1 with h1 | ⟨h1, h2⟩
    · exact Or.inl ((hg.forall_iff (fun x => ¬ Mem p x)).1 h1)
    · right
      have h3 := (hg.forall_iff (fun x => Mem p x → stop x = p)).1 h2
      refine ⟨?_, fun e he hp x hx => by have := h3 e he hp; have := hx.2; order⟩
      by_contra hc
      have := (hg.forall_iff (fun x => ¬ p < stop x)).2 (fun e he hlt => hc ⟨e, he, stop e.1, ⟨hv e he, le_refl _⟩, hlt⟩)
      obtain ⟨e, he, hlt⟩ := h1
      exact this e he hlt
  · right
    refine ⟨?_, w, m', l1, k, l2, h1, h1', h3, h3', h2, h4, h6, h7, h8⟩
    intro h
    have hm : (k, w) ∈ m.iter := by rw [h3]; simp
    rcases h with h | ⟨⟨e, he, x, hx, hlt⟩, h'⟩
    · exact h _ hm h2
    · rcases h5 with h5 | h5
      · have := h' _ hm h2 (stop k) ⟨hv _ hm, le_refl _⟩; order
      · have := (hg.forall_iff (fun x => stop x ≤ p)).1 h5 e he
        have := hx.2
        order

theorem cut_exact {m : ZosditMap K V} (hg : Good m) {q : Q} (hq : Valid q) :
    (CutMisses m.iter q ∧ m.cut q = .ok (m, [])) ∨
    (¬ CutMisses m.iter q ∧ ∃ m' returned, m.cut q = .ok (m', returned) ∧ CutAll q m.iter m'.iter returned ∧
      Good m' ∧ m'.len + m.iter.length = m.len + m'.iter.length) := by
  have hq' := valid_iff.1 hq
  have hv := hg.inv.flat.1
  rcases cut_ok hg.inv hq' hg.len with ⟨⟨e, he, h1⟩, h2, h3⟩ | ⟨h, m', h1, h2, h2', h2''⟩
  · left
    refine ⟨⟨?_, ?_⟩, h3⟩
    · by_contra hc
      have := (hg.inv.forall_iff (fun x => ¬ start x < start q)).2 (fun d hd hlt =>
        hc ⟨d, hd, start d.1, ⟨le_refl _, hv d hd⟩, fun x hx => lt_of_lt_of_le hlt hx.1⟩)
      exact this e he h1
    · rintro f hf ⟨p, hp, hp'⟩ ho
      have h3 := (hg.inv.forall_iff (fun x => start x < start q → stop x < start q)).1 h2 f hf
        (lt_of_le_of_lt hp.1 (hp' _ ⟨le_refl _, hq'⟩))
      have := ((overlap_iff (hv f hf) hq').1 ho).2
      order
  · right
    refine ⟨?_, m', _, h1, ?_, ⟨h2', by have := hg.len; omega⟩, h2''⟩
    · rintro ⟨⟨e, he, p, hp, hp'⟩, h4⟩
      rcases h with h | ⟨d, hd, h5, h6⟩
      · have := (hg.inv.forall_iff (fun x => start q ≤ start x)).1 h e he
        have := hp' _ ⟨le_refl _, hq'⟩
        have := hp.1
        order
      · have := (hg.inv.forall_iff (fun x => start x < start q → ¬ start q ≤ stop x)).2 (fun f hf hlt hle =>
          h4 f hf ⟨start f.1, ⟨le_refl _, hv f hf⟩, fun x hx => lt_of_lt_of_le hlt hx.1⟩
            ((overlap_iff (hv f hf) hq').2 ⟨by order, hle⟩))
        exact this d hd h5 h6
    · rw [h2]
      exact cutAll_ok hq' hv

omit [LawfulPoint I] [LawfulInterval I K] in
theorem insert_exact {m : ZosditMap K V} (hg : Good m) {k : K} (hk : Valid k) (v : V) (pick : Nat) :
    ((∃ e ∈ m.iter, ¬ ZeroOverlap e.1 k) ∧ m.insertStrictBack k v pick = .ok (m, .error ⟨v⟩)) ∨
    ((∀ e ∈ m.iter, ZeroOverlap e.1 k) ∧ ∃ m', m.insertStrictBack k v pick = .ok (m', .ok ()) ∧ Good m' ∧
      m'.len = m.len + 1 ∧ (NoDup m.inner → NoDup m'.inner) ∧
      AddedAt m.iter k v (NoDup m.inner ∨ ∃ p p', Mem p k ∧ Mem p' k ∧ p < p') m'.iter) := by
  have hk' := valid_iff.1 hk
  have hv := hg.inv.flat.1
  rcases insert_step hg hk' v pick with ⟨⟨e, he, hn⟩, h1⟩ | ⟨h1, m', l1, k', l2, e1, e2, e3, e4, e5, e6, e7, e8, e9, e10, e11, e12, e13⟩
  · exact Or.inl ⟨⟨e, he, fun hc => hn ((zeroOverlap_iff (hv e he) hk').1 hc)⟩, h1⟩
  · right
    refine ⟨fun e he => (zeroOverlap_iff (hv e he) hk').2 (h1 e he), m', e1, e2, e5, e12, ?_⟩
    have hi1 : ∀ e ∈ l1, e ∈ m.iter := fun e he => by rw [e3]; simp [he]
    have hi2 : ∀ e ∈ l2, e ∈ m.iter := fun e he => by rw [e3]; simp [he]
    refine ⟨l1, k', l2, e3, e4, fun p => by simp [Mem, e6, e7], e8, ?_, ?_, ?_, ?_⟩
    · intro hs
      exact e13 fun e he hc => hs e he ((sameInterval_iff (hv e he) hk').2 hc)
    · intro e he; exact (atOrBefore_iff (hv e (hi1 e he)) hk').2 (e9 e he)
    · intro e he; exact (atOrBefore_iff hk' (hv e (hi2 e he))).2 (e10 e he)
    · intro hc e he hs
      refine e11 ?_ e he ((sameInterval_iff (hv e (hi2 e he)) hk').1 hs)
      rcases hc with hc | ⟨p, p', hp, hp', hlt⟩
      · exact Or.inl hc
      · right; have := hp.1; have := hp'.2; order

omit [LawfulPoint I] [LawfulInterval I K] in
theorem AddedAt.mono {l l' : List (K × V)} {k : K} {v : V} {b b' : Prop} (h : AddedAt l k v b l') (hb : b' → b) :
    AddedAt l k v b' l' := by
  obtain ⟨l1, k', l2, e1, e2, e3, e4, e5, e6, e7, e8⟩ := h
  exact ⟨l1, k', l2, e1, e2, e3, e4, e5, e6, e7, fun h => e8 (hb h)⟩

/-- the map represents the state of the reference machine -/
structure Represents (m : ZosditMap K V) (s : ZState K V) : Prop where
  good : Good m
  entries : m.iter = s.entries
  len : m.len = s.entries.length + s.removed
  nodup : s.wasCut = false → NoDup m.inner

omit [LawfulPoint I] [LawfulInterval I K] in
theorem represents_new : Represents (new : ZosditMap K V) ⟨[], 0, false⟩ :=
  ⟨good_new, rfl, rfl, fun _ => by simp [NoDup, new]⟩

omit [LawfulPoint I] [LawfulInterval I K] in
theorem step_refines_no_cut {m : ZosditMap K V} {s : ZState K V} (h : Represents m s) (op : ZOp I K V) (hcut : op.isCut = false) :
    (op.Bad ∧ m.step op = .error .invalidInterval) ∨
    (¬ op.Bad ∧ ∃ m' o s', m.step op = .ok (m', o) ∧ Represents m' s' ∧ ZSpecOp s op s' o) := by
  obtain ⟨hg, he, hl, hn⟩ := h
  cases op with
  | insertStrictBack k v pick =>
    by_cases hk : Valid k
    · right
      refine ⟨fun hc => hc hk, ?_⟩
      rcases insert_exact hg hk v pick with ⟨h1, h2⟩ | ⟨h1, m', h2, h3, h4, h5, h6⟩
      · refine ⟨m, .strict (.error v), s, by rw [step, h2]; rfl, ⟨hg, he, hl, hn⟩, ?_, ?_⟩
        · intro _; exact ⟨rfl, rfl⟩
        · intro hc; obtain ⟨e, hm, hz⟩ := h1
          exact absurd (hc e (he ▸ hm)) hz
      · refine ⟨m', .strict (.ok ()), { s with entries := m'.iter }, by rw [step, h2]; rfl, ⟨h3, rfl, ?_, fun hc => h5 (hn hc)⟩, ?_, ?_⟩
        · obtain ⟨l1, k', l2, e1, e2, -⟩ := h6
          rw [h4, hl, ← he, e1, e2]
          simp only [List.length_append, List.length_cons]; omega
        · rintro ⟨e, hm, hz⟩; exact absurd (h1 e (he ▸ hm)) hz
        · intro _
          refine ⟨rfl, m'.iter, ?_, rfl⟩
          rw [← he]
          exact AddedAt.mono h6 (fun hb => hb.imp_left hn)
    · left
      refine ⟨hk, ?_⟩
      rw [valid_iff] at hk
      rw [step, insertStrictBack, invalidIntervalPanic_err hk]; rfl
  | removeLastValueAtPoint p =>
    right
    refine ⟨id, ?_⟩
    rcases lookup_exact hg.inv p with ⟨h1, -, h2⟩ | ⟨h1, v, m', l1, k, l2, -, h2, h3, h4, h5, h6, h7, h8, h9⟩
    · refine ⟨m, .optValue none, s, by rw [step, h2]; rfl, ⟨hg, he, hl, hn⟩, fun _ => ⟨rfl, rfl⟩, fun hc => absurd (he ▸ h1) hc⟩
    · refine ⟨m', .optValue (some v), { s with entries := l1 ++ l2, removed := s.removed + 1 }, by rw [step, h2]; rfl,
        ⟨⟨h8, ?_⟩, h4, ?_, fun hc => h9 (hn hc)⟩, fun hc => absurd (he ▸ hc) h1, fun _ => ⟨l1, k, v, l2, he ▸ h3, h5, h6, rfl, rfl⟩⟩
      · have := hg.len
        rw [h3] at this
        rw [h4, h7]
        simp only [List.length_append, List.length_cons] at *
        omega
      · rw [h7, hl, ← he, h3]
        simp only [List.length_append, List.length_cons]; omega
  | cut q => cases hcut

theorem step_refines {m : ZosditMap K V} {s : ZState K V} (h : Represents m s) (op : ZOp I K V) :
    (op.Bad ∧ m.step op = .error .invalidInterval) ∨
    (¬ op.Bad ∧ ∃ m' o s', m.step op = .ok (m', o) ∧ Represents m' s' ∧ ZSpecOp s op s' o) := by
  cases op with
  | insertStrictBack k v pick => exact step_refines_no_cut h _ rfl
  | removeLastValueAtPoint p => exact step_refines_no_cut h _ rfl
  | cut q =>
    obtain ⟨hg, he, hl, hn⟩ := h
    by_cases hq : Valid q
    · right
      refine ⟨fun hc => hc hq, ?_⟩
      rcases cut_exact hg hq with ⟨h1, h2⟩ | ⟨h1, m', r, h2, h3, h4, h5⟩
      · exact ⟨m, .entries [], s, by rw [step, h2]; rfl, ⟨hg, he, hl, hn⟩, fun _ => ⟨rfl, rfl⟩, fun hc => absurd (he ▸ h1) hc⟩
      · refine ⟨m', .entries r, { s with entries := m'.iter, wasCut := true }, by rw [step, h2]; rfl,
          ⟨h4, rfl, ?_, fun hc => by cases hc⟩, fun hc => absurd (he ▸ hc) h1, fun _ => ⟨m'.iter, r, he ▸ h3, rfl, rfl⟩⟩
        have : m.iter.length = s.entries.length := by rw [he]
        simp only; omega
    · left
      refine ⟨hq, ?_⟩
      rw [valid_iff] at hq
      rw [step, ZosditMap.cut, invalidIntervalPanic_err hq]; rfl

theorem run_refines {m : ZosditMap K V} {s : ZState K V} (h : Represents m s) (ops : List (ZOp I K V)) :
    ∃ s', ZSpecRun s ops s' (m.run ops).2 ∧ Represents (m.run ops).1 s' := by
  induction ops generalizing m s with
  | nil => exact ⟨s, .nil s, h⟩
  | cons op ops ih =>
    rcases step_refines h op with ⟨hb, h1⟩ | ⟨hb, m', o, s', h1, h2, h3⟩
    · obtain ⟨s', h2, h3⟩ := ih h
      rw [run, h1]
      exact ⟨s', .cons (Or.inl ⟨hb, rfl, rfl⟩) h2, h3⟩
    · obtain ⟨s'', h4, h5⟩ := ih h2
      rw [run, h1]
      exact ⟨s'', .cons (Or.inr ⟨hb, o, rfl, h3⟩) h4, h5⟩
end ZosditMap

/-! ## C62: whole histories -/

/-- **C62**: the outputs of every history, with valid or invalid arguments, are those of a run of the reference machine
from the empty sequence; at its end `iter()` is the sequence of the machine, `len()` is its length plus the number of
removed entries, and `is_empty()` says whether this is 0. -/
theorem C62_refines (ops : List (ZOp I K V)) :
    ∃ s, ZSpecRun ⟨[], 0, false⟩ ops s (outputs ops) ∧ (after ops).iter = s.entries ∧
      (after ops).length = s.entries.length + s.removed ∧
      ((after ops).isEmpty = true ↔ s.entries.length + s.removed = 0) := by
  obtain ⟨s, h1, h2⟩ := run_refines (represents_new (I := I) (K := K) (V := V)) ops
  refine ⟨s, h1, h2.entries, h2.len, ?_⟩
  rw [← h2.len, isEmpty, beq_iff_eq]; rfl

example : (outputs Demo.zops).length = 11 ∧ (after Demo.zops).iter.length = 4 ∧ (after Demo.zops).length = 5 := by decide

/-! ## C63: point lookups -/

/-- **C63**: `get_last_value_at_point` returns exactly the value of the last entry containing the point, unless all
entries containing the point end there and some entry has points above it; then it returns `None`. -/
theorem C63_get_last_value_exact (ops : List (ZOp I K V)) (p : I) :
    ((after ops).getLastValueAtPoint p = none ↔ NotFound (after ops).iter p) ∧
    ∀ v, (after ops).getLastValueAtPoint p = some v ↔
      ¬ NotFound (after ops).iter p ∧
      ∃ l1 k l2, (after ops).iter = l1 ++ (k, v) :: l2 ∧ Mem p k ∧ ∀ e ∈ l2, ¬ Mem p e.1 := by
  rcases lookup_exact (good_after ops).inv p with ⟨h1, h2, -⟩ | ⟨h1, v, m', l1, k, l2, h2, -, h3, -, h5, h6, -⟩
  · rw [h2]
    exact ⟨⟨fun _ => h1, fun _ => rfl⟩, fun v => ⟨(by intro h; cases h), fun hc => absurd h1 hc.1⟩⟩
  · rw [h2]
    refine ⟨⟨(by intro h; cases h), fun hc => absurd hc h1⟩, fun w => ⟨?_, ?_⟩⟩
    · intro h; cases h
      exact ⟨h1, l1, k, l2, h3, h5, h6⟩
    · rintro ⟨-, l1', k', l2', h7, h8, h9⟩
      rw [last_unique (P := fun e : K × V => Mem p e.1) (h3.symm.trans h7) h5 h6 h8 h9 |>.2.1]

omit [LawfulInterval I K] in
/-- **C63**: in particular the first and middle points of an entry are never missed: if some entry containing the point
goes on above it, the last entry containing the point is found. -/
theorem C63_found_inside (ops : List (ZOp I K V)) (p : I) (h : ∃ e ∈ (after ops).iter, Mem p e.1 ∧ ∃ x, Mem x e.1 ∧ p < x) :
    ¬ NotFound (after ops).iter p := by
  obtain ⟨e, he, hp, x, hx, hlt⟩ := h
  rintro (h | ⟨-, h⟩)
  · exact h e he hp
  · have := h e he hp x hx; order

example : NotFound (after Demo.zops).iter (Demo.u8 2) ∧ ¬ NotFound (after Demo.zops).iter (Demo.u8 7) := by
  rw [← (C63_get_last_value_exact Demo.zops _).1, ← (C63_get_last_value_exact Demo.zops _).1]; decide

/-! ## C64: `len` and `is_empty` -/

/-- **C64** -/
theorem C64_len_exact (ops : List (ZOp I K V)) :
    (after ops).length = (after ops).iter.length + (outputs ops).countP isRemoval ∧
    ((after ops).isEmpty = true ↔ (after ops).iter = [] ∧ ∀ o ∈ outputs ops, isRemoval o = false) := by
  have h := C42_len_exact ops
  refine ⟨h, ?_⟩
  rw [isEmpty, beq_iff_eq]
  simp only [length] at h
  rw [h, Nat.add_eq_zero_iff, List.length_eq_zero_iff, List.countP_eq_zero]
  simp

example : (outputs Demo.zops).countP isRemoval = 1 := by decide

/-! ## C65: `cut` -/

/-- **C65**: `cut(q)` cuts every entry, or does nothing; it does nothing exactly if some entry has points before `q` but
no such entry reaches `q`. -/
theorem C65_cut_exact (ops : List (ZOp I K V)) {q : Q} (hq : Valid q) :
    (CutMisses (after ops).iter q → (after ops).cut q = .ok (after ops, [])) ∧
    (¬ CutMisses (after ops).iter q → ∃ m' returned, (after ops).cut q = .ok (m', returned) ∧
      CutAll q (after ops).iter m'.iter returned ∧ m'.length + (after ops).iter.length = (after ops).length + m'.iter.length) := by
  rcases cut_exact (good_after ops) hq with ⟨h1, h2⟩ | ⟨h1, m', r, h2, h3, h4, h5⟩
  · exact ⟨fun _ => h2, fun hc => absurd h1 hc⟩
  · exact ⟨fun hc => absurd hc h1, fun _ => ⟨m', r, h2, h3, h5⟩⟩

omit [LawfulInterval I K] in
private theorem prop1 (A B C D : Prop) : ((A ∧ B) ∧ D ∨ (A ∧ C) ∧ D) ↔ (A ∧ (B ∨ C)) ∧ D := by tauto
omit [LawfulInterval I K] in
private theorem prop2 (A B C D E : Prop) : (A ∧ C ∨ (D ∨ E)) ↔ ((A ∧ ¬ B) ∧ C ∨ D) ∨ ((A ∧ B) ∧ C ∨ E) := by
  by_cases B <;> tauto

/-- **C65**: whatever happens, nothing is lost: a point had a value iff it has it now or it is in the returned part -/
theorem C65_nothing_lost (ops : List (ZOp I K V)) {q : Q} (hq : Valid q) :
    ∃ m' returned, (after ops).cut q = .ok (m', returned) ∧
      ∀ p v, (∃ e ∈ (after ops).iter, Mem p e.1 ∧ e.2 = v) ↔
        (∃ e ∈ m'.iter, Mem p e.1 ∧ e.2 = v) ∨ (∃ e ∈ returned, Mem p e.1 ∧ e.2 = v) := by
  rcases cut_exact (good_after ops) hq with ⟨h1, h2⟩ | ⟨h1, m', r, h2, h3, h4, h5⟩
  · exact ⟨_, _, h2, by simp⟩
  · refine ⟨m', r, h2, ?_⟩
    have hq' := valid_iff.1 hq
    clear h1 h2 h4 h5
    generalize (after ops).iter = l at h3
    generalize m'.iter = left at h3
    have hpart : ∀ {P : I → Prop} {v : V} {l : List (K × V)}, Part P v l → ∀ p w, (∃ e ∈ l, Mem p e.1 ∧ e.2 = w) ↔ P p ∧ v = w := by
      rintro P v l (⟨h, rfl⟩ | ⟨i, ⟨-, hi⟩, rfl⟩) p w
      · simp [h p]
      · have : Mem p (ofInterval i : K) ↔ P p := by
          rw [← hi p]; simp [Mem, LawfulInterval.start_of, LawfulInterval.stop_of, start, stop]
        simp [this]
    induction h3 with
    | nil => simp
    | @cons e l left returned left' returned' hc _ ih =>
      intro p v
      obtain ⟨h1, h2, h3⟩ := hc
      have hr := hpart h1 p v
      have hl : (∃ d ∈ left, Mem p d.1 ∧ d.2 = v) ↔ (Mem p e.1 ∧ ¬ Mem p q) ∧ e.2 = v := by
        by_cases ho : Overlap e.1 q
        · obtain ⟨b, a, rfl, hb, ha⟩ := h3 ho
          have hb := hpart hb p v
          have ha := hpart ha p v
          simp only [forall_mem_lt hq'] at hb
          simp only [forall_mem_gt hq'] at ha
          have hab : (∃ d ∈ b ++ a, Mem p d.1 ∧ d.2 = v) ↔ (∃ d ∈ b, Mem p d.1 ∧ d.2 = v) ∨ ∃ d ∈ a, Mem p d.1 ∧ d.2 = v := by
            simp only [List.mem_append, or_and_right, exists_or]
          rw [hab, hb, ha]
          have : ¬ Mem p q ↔ p < start q ∨ stop q < p := by
            rw [Mem, not_and_or, not_le, not_le]
          rw [this]
          exact prop1 _ _ _ _
        · rw [h2 ho]
          have : Mem p e.1 → ¬ Mem p q := fun h1 h2 => ho ⟨p, h1, h2⟩
          simp only [List.mem_singleton, exists_eq_left]
          constructor
          · rintro ⟨a, b⟩; exact ⟨⟨a, this a⟩, b⟩
          · rintro ⟨⟨a, -⟩, b⟩; exact ⟨a, b⟩
      have hi := ih p v
      have happ : ∀ l1 l2 : List (K × V), (∃ d ∈ l1 ++ l2, Mem p d.1 ∧ d.2 = v) ↔ (∃ d ∈ l1, Mem p d.1 ∧ d.2 = v) ∨ ∃ d ∈ l2, Mem p d.1 ∧ d.2 = v := by
        intro l1 l2; simp only [List.mem_append, or_and_right, exists_or]
      have hcons : (∃ d ∈ e :: l, Mem p d.1 ∧ d.2 = v) ↔ (Mem p e.1 ∧ e.2 = v) ∨ ∃ d ∈ l, Mem p d.1 ∧ d.2 = v := by
        simp only [List.mem_cons, or_and_right, exists_or, exists_eq_left]
      rw [hcons, happ, happ, hr, hl, hi]
      exact prop2 _ _ _ _ _

omit [LawfulInterval I K] in
theorem cutMisses_iff {l : List (K × V)} (hl : ∀ e ∈ l, start e.1 ≤ stop e.1) {q : Q} (hq : start q ≤ stop q) :
    CutMisses l q ↔ (∃ e ∈ l, start e.1 < start q) ∧ ∀ e ∈ l, start e.1 < start q → stop e.1 < start q := by
  have h : ∀ e ∈ l, (∃ p, Mem p e.1 ∧ ∀ x, Mem x q → p < x) ↔ start e.1 < start q := fun e he =>
    ⟨fun ⟨p, hp, hp'⟩ => lt_of_le_of_lt hp.1 (hp' _ ⟨le_refl _, hq⟩),
     fun hlt => ⟨start e.1, ⟨le_refl _, hl e he⟩, fun x hx => lt_of_lt_of_le hlt hx.1⟩⟩
  unfold CutMisses
  refine and_congr ⟨fun ⟨e, he, h'⟩ => ⟨e, he, (h e he).1 h'⟩, fun ⟨e, he, h'⟩ => ⟨e, he, (h e he).2 h'⟩⟩ ?_
  refine forall₂_congr fun e he => ?_
  rw [h e he, overlap_iff (hl e he) hq, not_and, not_le]
  exact ⟨fun h1 h2 => h1 h2 (by order), fun h1 h2 _ => h1 h2⟩

example : CutMisses (after Demo.zops).iter (Demo.iv 5 40) ∧ ¬ CutMisses (after Demo.zops).iter (Demo.iv 2 7) := by
  have hv : ∀ e ∈ (after Demo.zops).iter, start e.1 ≤ stop e.1 := (good_after Demo.zops).inv.flat.1
  rw [cutMisses_iff hv (by decide), cutMisses_iff hv (by decide),
    Demo.zops_iter]
  decide


/-! ## C66: `insert_strict_back` in maps that have not been cut -/

namespace ZosditMap
omit [LawfulInterval I K] in
theorem key_unique {l : List (K × List V)} (hl : ZInv l) (hn : NoDup l) {a b : K × V} (ha : a ∈ flatten l) (hb : b ∈ flatten l)
    (h : start a.1 = start b.1 ∧ stop a.1 = stop b.1) : a.1 = b.1 := by
  obtain ⟨x, hx, v, hv, rfl⟩ : ∃ x ∈ l, ∃ v ∈ x.2, (x.1, v) = a := by simpa [flatten] using ha
  obtain ⟨y, hy, w, hw, rfl⟩ : ∃ x ∈ l, ∃ v ∈ x.2, (x.1, v) = b := by simpa [flatten] using hb
  simp only at h ⊢
  by_contra hne
  have hxy : x ≠ y := fun hc => hne (by rw [hc])
  have vx := hl.valid x hx
  have vy := hl.valid y hy
  have hp : l.Pairwise (fun a b => stop a.1 ≤ start b.1 ∧ start a.1 < stop b.1) := hl.seq.and hn
  have hp' : l.Pairwise (fun a b => (stop a.1 ≤ start b.1 ∧ start a.1 < stop b.1) ∨ (stop b.1 ≤ start a.1 ∧ start b.1 < stop a.1)) :=
    hp.imp Or.inl
  have : ∀ {l : List (K × List V)}, l.Pairwise (fun a b => (stop a.1 ≤ start b.1 ∧ start a.1 < stop b.1) ∨
      (stop b.1 ≤ start a.1 ∧ start b.1 < stop a.1)) → x ∈ l → y ∈ l → (stop x.1 ≤ start y.1 ∧ start x.1 < stop y.1) ∨
      (stop y.1 ≤ start x.1 ∧ start y.1 < stop x.1) := by
    intro l hp hx hy
    induction l with
    | nil => cases hx
    | cons c l ih =>
      rw [List.pairwise_cons] at hp
      rcases List.mem_cons.1 hx with h1 | h1 <;> rcases List.mem_cons.1 hy with h2 | h2
      · exact absurd (h1.trans h2.symm) hxy
      · rw [h1]; exact hp.1 _ h2
      · rw [h2]; exact (hp.1 _ h1).symm
      · exact ih hp.2 h1 h2
  replace this := this hp' hx hy
  rcases this with ⟨h1, h2⟩ | ⟨h1, h2⟩ <;> (obtain ⟨h3, h4⟩ := h; order)
end ZosditMap

/-- **C66**: in a map that has not been cut, an interval that zero-overlaps the map is added, in interval order and after
all entries with an identical interval; all of these have, and the new entry gets, the key that was given first. -/
theorem C66_insert_at_back (ops : List (ZOp I K V)) (hc : ∀ op ∈ ops, op.isCut = false) {k : K} (hk : Valid k) (v : V) (pick : Nat)
    (h : ∀ e ∈ (after ops).iter, ZeroOverlap e.1 k) :
    ∃ m' l1 k' l2, (after ops).insertStrictBack k v pick = .ok (m', .ok ()) ∧
      (after ops).iter = l1 ++ l2 ∧ m'.iter = l1 ++ (k', v) :: l2 ∧
      (∀ e ∈ l1, AtOrBefore e.1 k) ∧ (∀ e ∈ l2, AtOrBefore k e.1 ∧ ¬ SameInterval e.1 k) ∧
      (∀ e ∈ (after ops).iter, SameInterval e.1 k → e.1 = k') ∧ ((∀ e ∈ (after ops).iter, ¬ SameInterval e.1 k) → k' = k) ∧
      m'.length = (after ops).length + 1 := by
  have hg := good_after ops
  have hn : NoDup (after ops).inner := (run_ok (good_new (K := K) (V := V)) ops).2.2.2 (by simp [NoDup, new]) hc
  rcases insert_exact hg hk v pick with ⟨⟨e, he, hz⟩, -⟩ | ⟨-, m', h2, h3, h4, h5, l1, k', l2, e1, e2, e3, e4, e5, e6, e7, e8⟩
  · exact absurd (h e he) hz
  · refine ⟨m', l1, k', l2, h2, e1, e2, e6, fun e he => ⟨e7 e he, e8 (Or.inl hn) e he⟩, ?_, e5, h4⟩
    intro e he hs
    have hk' : start k' ≤ stop k' := h3.inv.flat.1 (k', v) (by show _ ∈ m'.iter; rw [e2]; simp)
    have hks : SameInterval e.1 k' := fun p => (hs p).trans (e3 p).symm
    refine key_unique (b := (k', v)) h3.inv (h5 hn) ?_ ?_ ((sameInterval_iff (hg.inv.flat.1 e he) hk').1 hks)
    · show _ ∈ m'.iter
      rw [e2]; rw [e1] at he
      simp only [List.mem_append, List.mem_cons] at he ⊢
      tauto
    · show _ ∈ m'.iter
      rw [e2]; simp

/-- a history without a cut -/
def Demo.zback : List (ZOp Demo.U8 (Interval Demo.U8) Nat) := Demo.zops.take 8

example : (∀ op ∈ Demo.zback, op.isCut = false) ∧ ∀ e ∈ (after Demo.zback).iter, ZeroOverlap e.1 (Demo.iv 4 4) := by
  refine ⟨by decide, fun e he => ?_⟩
  have hv := (good_after Demo.zback).inv.flat.1 e he
  rw [zeroOverlap_iff hv (by decide)]
  revert e; decide

/-! ## C67: a removal undoes the insert -/

/-- **C67**: after a successful insert of an interval with a point above `p`, the value is found at `p`, and
`remove_last_value_at_point(p)` returns it and restores the sequence of entries. -/
theorem C67_remove_undoes_insert (ops : List (ZOp I K V)) {k : K} (v : V) (pick : Nat) {m' : ZosditMap K V} {p x : I}
    (h : (after ops).insertStrictBack k v pick = .ok (m', .ok ())) (hp : Mem p k) (hx : Mem x k) (hlt : p < x) :
    m'.getLastValueAtPoint p = some v ∧ ∃ m'', m'.removeLastValueAtPoint p = .ok (m'', some v) ∧ m''.iter = (after ops).iter := by
  rcases insert_exact (good_after ops) ⟨p, hp⟩ v pick with ⟨-, h1⟩ | ⟨-, m1, h2, h3, -, -, l1, k', l2, e1, e2, e3, -, -, -, e7, -⟩
  · rw [h1] at h; cases h
  · rw [h2] at h; cases h
    have hk' := (e3 p).2 hp
    have hl2 : ∀ e ∈ l2, ¬ Mem p e.1 := fun e he hpe => absurd (e7 e he x p hx hpe) (not_le.2 hlt)
    rcases lookup_exact h3.inv p with ⟨h4, -⟩ | ⟨-, w, m'', l1', k'', l2', g1, g2, g3, g4, g5, g6, -⟩
    · exfalso
      have hm : (k', v) ∈ m'.iter := by rw [e2]; simp
      rcases h4 with h4 | ⟨-, h4⟩
      · exact h4 _ hm hk'
      · exact absurd (h4 _ hm hk' x ((e3 x).2 hx)) (not_le.2 hlt)
    · rw [e2] at g3
      obtain ⟨-, rfl, rfl, rfl⟩ := last_unique (P := fun e : K × V => Mem p e.1) g3 hk' hl2 g5 g6
      exact ⟨g1, m'', g2, by rw [g4, e1]⟩

/-- **C67** for a point interval at the end of a map that has not been cut. -/
theorem C67_remove_undoes_insert_point (ops : List (ZOp I K V)) (hc : ∀ op ∈ ops, op.isCut = false) {k : K} (v : V) (pick : Nat)
    {m' : ZosditMap K V} {p : I} (h : (after ops).insertStrictBack k v pick = .ok (m', .ok ())) (hp : ∀ x, Mem x k ↔ x = p)
    (hlast : ∀ e ∈ (after ops).iter, ∀ x, Mem x e.1 → x ≤ p) :
    m'.getLastValueAtPoint p = some v ∧ ∃ m'', m'.removeLastValueAtPoint p = .ok (m'', some v) ∧ m''.iter = (after ops).iter := by
  have hn : NoDup (after ops).inner := (run_ok (good_new (K := K) (V := V)) ops).2.2.2 (by simp [NoDup, new]) hc
  have hpk : Mem p k := (hp p).2 rfl
  rcases insert_exact (good_after ops) ⟨p, hpk⟩ v pick with ⟨-, h1⟩ | ⟨-, m1, h2, h3, -, -, l1, k', l2, e1, e2, e3, -, -, -, e7, e8⟩
  · rw [h1] at h; cases h
  · rw [h2] at h; cases h
    have hk' := (e3 p).2 hpk
    have hl2 : ∀ e ∈ l2, ¬ Mem p e.1 := by
      intro e he hpe
      refine e8 (Or.inl hn) e he fun x => ⟨fun hx => (hp x).2 (le_antisymm ?_ ?_), fun hx => ?_⟩
      · exact hlast e (by rw [e1]; simp [he]) x hx
      · exact e7 e he p x hpk hx
      · rw [(hp x).1 hx]; exact hpe
    rcases lookup_exact h3.inv p with ⟨h4, -⟩ | ⟨-, w, m'', l1', k'', l2', g1, g2, g3, g4, g5, g6, -⟩
    · exfalso
      have hm : (k', v) ∈ m'.iter := by rw [e2]; simp
      rcases h4 with h4 | ⟨⟨e, he, x, hx, hlt⟩, -⟩
      · exact h4 _ hm hk'
      · rw [e2] at he
        simp only [List.mem_append, List.mem_cons] at he
        have hx' : x ≤ p := by
          rcases he with he | rfl | he
          · exact hlast e (by rw [e1]; simp [he]) x hx
          · exact ((hp x).1 ((e3 x).1 hx)).le
          · exact hlast e (by rw [e1]; simp [he]) x hx
        order
    · rw [e2] at g3
      obtain ⟨-, rfl, rfl, rfl⟩ := last_unique (P := fun e : K × V => Mem p e.1) g3 hk' hl2 g5 g6
      exact ⟨g1, m'', g2, by rw [g4, e1]⟩

example : ∃ m', (after Demo.zops).insertStrictBack (Demo.iv 8 30) 5 0 = .ok (m', .ok ()) := ⟨_, rfl⟩
example : ∃ m', (after Demo.zback).insertStrictBack (Demo.iv 30 30) 5 0 = .ok (m', .ok ()) := ⟨_, rfl⟩

/-! ## C68: the order of inserts matters only between identical intervals -/

omit [LawfulInterval I K] in
/-- a sequence of entries is determined by the values it has, in order, for each interval -/
theorem zwf_unique {l l' : List (K × V)} (h : ZWF l) (h' : ZWF l')
    (hf : ∀ q : Interval I, (l.filter (sameEnds q)).map Prod.snd = (l'.filter (sameEnds q)).map Prod.snd) :
    List.Forall₂ (fun a b => SameInterval a.1 b.1 ∧ a.2 = b.2) l l' := by
  rw [zwf_iff] at h h'
  induction l generalizing l' with
  | nil =>
    cases l' with
    | nil => exact .nil
    | cons e l' =>
      have := hf ⟨start e.1, stop e.1⟩
      rw [List.filter_cons_of_pos (by simp [sameEnds])] at this
      simp at this
  | cons a l ih =>
    cases l' with
    | nil =>
      have := hf ⟨start a.1, stop a.1⟩
      rw [List.filter_cons_of_pos (by simp [sameEnds])] at this
      simp at this
    | cons b l' =>
      obtain ⟨hv, hp⟩ := h
      obtain ⟨hv', hp'⟩ := h'
      rw [List.pairwise_cons] at hp hp'
      have va := hv a (by simp)
      have vb := hv' b (by simp)
      have ex : ∀ {l l' : List (K × V)}, (∀ q : Interval I, (l.filter (sameEnds q)).map Prod.snd = (l'.filter (sameEnds q)).map Prod.snd) →
          ∀ e ∈ l, ∃ d ∈ l', start d.1 = start e.1 ∧ stop d.1 = stop e.1 := by
        intro l l' hf e he
        have h1 : (l.filter (sameEnds ⟨start e.1, stop e.1⟩)) ≠ [] := by
          intro hc; rw [List.filter_eq_nil_iff] at hc; exact hc e he (by simp [sameEnds])
        have h2 : (l'.filter (sameEnds ⟨start e.1, stop e.1⟩)) ≠ [] := by
          intro hc; have := hf ⟨start e.1, stop e.1⟩; rw [hc] at this; simp only [List.map_nil, List.map_eq_nil_iff] at this; exact h1 this
        obtain ⟨d, hd⟩ := List.exists_mem_of_ne_nil _ h2
        rw [List.mem_filter] at hd
        exact ⟨d, hd.1, by simpa [sameEnds] using hd.2⟩
      have hab : start a.1 = start b.1 ∧ stop a.1 = stop b.1 := by
        obtain ⟨x, hx, hx'⟩ := ex hf a (by simp)
        obtain ⟨y, hy, hy'⟩ := ex (fun q => (hf q).symm) b (by simp)
        rw [List.mem_cons] at hx hy
        rcases hx with rfl | hx
        · exact ⟨hx'.1.symm, hx'.2.symm⟩
        rcases hy with rfl | hy
        · exact hy'
        have h1 := hp.1 y hy
        have h2 := hp'.1 x hx
        rw [hy'.1] at h1
        rw [hx'.1] at h2
        exact ⟨by order, by order⟩
      have hsame : ∀ q : Interval I, sameEnds q a = sameEnds q b := fun q => by simp [sameEnds, hab.1, hab.2]
      have hval : a.2 = b.2 := by
        have := hf ⟨start a.1, stop a.1⟩
        rw [List.filter_cons_of_pos (by simp [sameEnds]), List.filter_cons_of_pos (by rw [← hsame]; simp [sameEnds])] at this
        simp only [List.map_cons, List.cons.injEq] at this
        exact this.1
      refine .cons ⟨(sameInterval_iff va vb).2 hab, hval⟩ (ih ⟨fun e he => hv e (by simp [he]), hp.2⟩ ⟨fun e he => hv' e (by simp [he]), hp'.2⟩ ?_)
      intro q
      have := hf q
      rw [List.filter_cons, List.filter_cons, ← hsame] at this
      by_cases hq : sameEnds q a = true
      · simp only [hq, if_true, List.map_cons, List.cons.injEq] at this; exact this.2
      · simpa only [hq, Bool.false_eq_true, if_false] using this

open Classical in
omit [LawfulInterval I K] in
/-- **C68**: two lists of valid, pairwise zero-overlapping items which agree on the order of the items with identical
intervals lead to the same entries. -/
theorem C68_order_independent {l l' : List (K × V)} (hv : ∀ e ∈ l, Valid e.1) (hv' : ∀ e ∈ l', Valid e.1)
    (hz : l.Pairwise (fun a b => ZeroOverlap a.1 b.1)) (hz' : l'.Pairwise (fun a b => ZeroOverlap a.1 b.1))
    (hf : ∀ q : Interval I, Valid q → (l.filter (fun e => SameInterval e.1 q)).map Prod.snd =
      (l'.filter (fun e => SameInterval e.1 q)).map Prod.snd) (picks picks' : Nat → Nat) :
    ∃ m m', fromIterStrictBack l picks = .ok (.ok m) ∧ fromIterStrictBack l' picks' = .ok (.ok m') ∧
      List.Forall₂ (fun a b => SameInterval a.1 b.1 ∧ a.2 = b.2) m.iter m'.iter := by
  obtain ⟨m, h1, -, h2, h3, -⟩ := C45_from_iter_strict_back hv hz picks
  obtain ⟨m', h1', -, h2', h3', -⟩ := C45_from_iter_strict_back hv' hz' picks'
  refine ⟨m, m', h1, h1', zwf_unique h2 h2' fun q => ?_⟩
  have w := (zwf_iff.1 h2).1
  have w' := (zwf_iff.1 h2').1
  have conv : ∀ (l : List (K × V)), (∀ e ∈ l, start e.1 ≤ stop e.1) → start q ≤ stop q →
      l.filter (fun e => decide (SameInterval e.1 q)) = l.filter (sameEnds q) := fun l hl hq' =>
    List.filter_congr fun e he => by rw [sameEnds, decide_eq_decide]; exact sameInterval_iff (hl e he) hq'
  by_cases hq : Valid q
  · have hq' : q.start ≤ q.stop := valid_iff.1 hq
    rw [← conv _ w hq', ← conv _ w' hq', h3 q hq, h3' q hq, hf q hq]
  · have nil : ∀ (l : List (K × V)), (∀ e ∈ l, start e.1 ≤ stop e.1) → l.filter (sameEnds q) = [] := by
      intro l hl
      rw [List.filter_eq_nil_iff]
      intro e he hc
      simp only [sameEnds, decide_eq_true_eq] at hc
      refine hq (valid_iff.2 ?_)
      show q.start ≤ q.stop
      rw [← hc.1, ← hc.2]; exact hl e he
    rw [nil _ w, nil _ w']

omit [LawfulInterval I K] in
/-- **C68** for `Interval` itself: the two maps iterate identically. -/
theorem C68_order_independent_interval {l l' : List (Interval I × V)} (hv : ∀ e ∈ l, Valid e.1) (hv' : ∀ e ∈ l', Valid e.1)
    (hz : l.Pairwise (fun a b => ZeroOverlap a.1 b.1)) (hz' : l'.Pairwise (fun a b => ZeroOverlap a.1 b.1))
    (hf : ∀ q : Interval I, l.filter (fun e => e.1 = q) = l'.filter (fun e => e.1 = q)) (picks picks' : Nat → Nat) :
    ∃ m m', fromIterStrictBack l picks = .ok (.ok m) ∧ fromIterStrictBack l' picks' = .ok (.ok m') ∧ m.iter = m'.iter := by
  classical
  have conv : ∀ (q : Interval I) (l : List (Interval I × V)), Valid q → (∀ e ∈ l, Valid e.1) →
      l.filter (fun e => decide (SameInterval e.1 q)) = l.filter (fun e => decide (e.1 = q)) := fun q l hq hl =>
    List.filter_congr fun e he => by
      rw [decide_eq_decide, sameInterval_iff (valid_iff.1 (hl e he)) (valid_iff.1 hq)]
      obtain ⟨⟨a, b⟩, v⟩ := e
      obtain ⟨c, d⟩ := q
      simp [start, stop]
  obtain ⟨m, m', h1, h2, h3⟩ := C68_order_independent hv hv' hz hz' (fun q hq => by
    rw [conv q l hq hv, conv q l' hq hv', hf q]) picks picks'
  refine ⟨m, m', h1, h2, ?_⟩
  have w : ∀ {l : List (Interval I × V)} {m : ZosditMap (Interval I) V} {picks}, (∀ e ∈ l, Valid e.1) →
      l.Pairwise (fun a b => ZeroOverlap a.1 b.1) → fromIterStrictBack l picks = .ok (.ok m) → ZWF m.iter := by
    intro l m picks hv hz h
    obtain ⟨m1, g1, -, g2, -⟩ := C45_from_iter_strict_back hv hz picks
    rw [g1] at h; cases h; exact g2
  have w1 := (w hv hz h1).1
  have w2 := (w hv' hz' h2).1
  have : List.Forall₂ (fun a b => a = b) m.iter m'.iter := by
    revert w1 w2
    generalize m.iter = a at h3
    generalize m'.iter = b at h3
    intro w1 w2
    induction h3 with
    | nil => exact .nil
    | @cons x y a b hxy _ ih =>
      refine .cons ?_ (ih (fun e he => w1 e (by simp [he])) (fun e he => w2 e (by simp [he])))
      obtain ⟨⟨x1, x2⟩, x3⟩ := x
      obtain ⟨⟨y1, y2⟩, y3⟩ := y
      have h5 := (sameInterval_iff (valid_iff.1 (w1 _ (List.mem_cons_self ..))) (valid_iff.1 (w2 _ (List.mem_cons_self ..)))).1 hxy.1
      have h6 := hxy.2
      simp only [start, stop] at h5 h6
      rw [h5.1, h5.2, h6]
  exact List.forall₂_eq_eq_eq ▸ this

example : ∃ m m', fromIterStrictBack [(Demo.iv 4 8, 1), (Demo.iv 4 4, 2), (Demo.iv 0 4, 3), (Demo.iv 4 4, 4)] (fun _ => 0) = .ok (.ok m) ∧
    fromIterStrictBack [(Demo.iv 4 4, 2), (Demo.iv 0 4, 3), (Demo.iv 4 4, 4), (Demo.iv 4 8, 1)] (fun _ => 0) = .ok (.ok m') ∧
    m.iter = m'.iter := ⟨_, _, rfl, rfl, by decide⟩

end Nodit
