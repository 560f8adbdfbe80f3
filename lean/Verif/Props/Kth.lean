import Verif.Props.Txn
import Mathlib.Data.Set.Card
/-!
# C148: the point with a given number

A client numbers the points of a `NoditMap` in ascending order, from 0, and finds the one with a given number by walking over the entries.
-/
set_option linter.unusedSectionVars false
namespace Nodit.Kth
open Spec PointType InclusiveInterval NoditMap

variable {I K V : Type} [PointType I] [IntervalType I K] [LawfulPoint I] [LawfulInterval I K]

/-- `loop { if k == 0 { return Ok(p) } k -= 1; if p == e { return Err(k) } p = p.up().unwrap() }`. A client, models no lines of `/repo`. -/
def walk (e : I) : Nat → I → Res (I ⊕ Nat)
  | 0, p => pure (.inl p)
  | k + 1, p => if p = e then pure (.inr k) else do walk e k (← unwrap (up p))

/-- `for (key, _) in m.iter() { match walk(key.end(), k, key.start()) { Ok(p) => return Some(p), Err(left) => k = left } } None`. A client, models no lines
of `/repo`. -/
def kth : List (K × V) → Nat → Res (Option I)
  | [], _ => pure none
  | e :: l, k => do
    match ← walk (stop (I := I) e.1) k (start e.1) with
    | .inl p => pure (some p)
    | .inr k => kth l k

theorem walk_spec (e : I) (k : Nat) (p : I) (hp : p ≤ e) :
    (∃ r, walk e k p = .ok (.inl r) ∧ p ≤ r ∧ r ≤ e ∧ {x | p ≤ x ∧ x < r}.encard = k) ∨
    (∃ k', walk e k p = .ok (.inr k') ∧ {x | p ≤ x ∧ x ≤ e}.encard + k' = k) := by
  induction k generalizing p with
  | zero =>
    refine Or.inl ⟨p, rfl, le_refl _, hp, ?_⟩
    rw [Nat.cast_zero, Set.encard_eq_zero, Set.eq_empty_iff_forall_notMem]
    rintro x ⟨h1, h2⟩; order
  | succ k ih =>
    by_cases he : p = e
    · subst he
      refine Or.inr ⟨k, by simp [walk, pure, Except.pure], ?_⟩
      have : {x | p ≤ x ∧ x ≤ p} = {p} := by
        ext x; exact ⟨fun ⟨h1, h2⟩ => le_antisymm h2 h1, fun h => by rw [Set.mem_singleton_iff] at h; subst h; exact ⟨le_refl _, le_refl _⟩⟩
      rw [this, Set.encard_singleton, add_comm]; norm_cast
    · have hlt : p < e := lt_of_le_of_ne hp he
      obtain ⟨d, d1, d2, d3, -⟩ := up_exists hlt
      obtain ⟨d4, d5⟩ := LawfulPoint.up_some _ _ d1
      have hw : walk e (k + 1) p = walk e k d := by simp [walk, he, d1, unwrap, bind, Except.bind]
      have hins : ∀ P : I → Prop, P p → {x | p ≤ x ∧ P x} = insert p {x | d ≤ x ∧ P x} := fun P hP => by
        ext x
        rw [Set.mem_insert_iff]
        constructor
        · rintro ⟨h1, h2⟩
          rcases eq_or_lt_of_le h1 with h | h
          · exact Or.inl h.symm
          · exact Or.inr ⟨d5 x h, h2⟩
        · rintro (rfl | ⟨h1, h2⟩)
          · exact ⟨le_refl _, hP⟩
          · exact ⟨le_trans (le_of_lt d4) h1, h2⟩
      have hni : ∀ P : I → Prop, p ∉ {x | d ≤ x ∧ P x} := fun P h => absurd h.1 (not_le.2 d4)
      rw [hw]
      rcases ih d d3 with ⟨r, h1, h2, h3, h4⟩ | ⟨k', h1, h2⟩
      · refine Or.inl ⟨r, h1, le_trans (le_of_lt d4) h2, h3, ?_⟩
        rw [hins (fun x => x < r) (lt_of_lt_of_le d4 h2), Set.encard_insert_of_notMem (hni _), h4]; norm_cast
      · refine Or.inr ⟨k', h1, ?_⟩
        rw [hins (fun x => x ≤ e) hp, Set.encard_insert_of_notMem (hni _), add_right_comm, h2]; norm_cast

/-- the points of the entries -/
def Covered (l : List (K × V)) (p : I) : Prop := ∃ e ∈ l, Mem p e.1

theorem kth_spec (l : List (K × V)) (h : WF (I := I) l) (k : Nat) :
    (∃ p : I, kth l k = .ok (some p) ∧ Covered l p ∧ {x | Covered l x ∧ x < p}.encard = k) ∨
    (kth (I := I) l k = .ok none ∧ {x : I | Covered l x}.encard ≤ k) := by
  induction l generalizing k with
  | nil => exact Or.inr ⟨rfl, by simp [Covered]⟩
  | cons e l ih =>
    have hv := valid_iff.1 (h.1 e (by simp))
    have hp := List.pairwise_cons.1 h.2
    have hl : WF (I := I) l := ⟨fun d hd => h.1 d (by simp [hd]), hp.2⟩
    have hafter : ∀ x : I, Covered l x → stop e.1 < x := fun x ⟨d, hd, hx⟩ => hp.1 d hd (stop e.1) x ⟨hv, le_refl _⟩ hx
    have hc : ∀ x : I, Covered (e :: l) x ↔ (start e.1 ≤ x ∧ x ≤ stop e.1) ∨ Covered l x := fun x => by
      simp only [Covered, List.mem_cons, exists_eq_or_imp, Mem]
    rcases walk_spec (stop (I := I) e.1) k (start e.1) hv with ⟨r, h1, h2, h3, h4⟩ | ⟨k', h1, h2⟩
    · refine Or.inl ⟨r, by simp only [kth, h1, bind, Except.bind, pure, Except.pure], (hc r).2 (Or.inl ⟨h2, h3⟩), ?_⟩
      rw [← h4]; congr 1; ext x
      simp only [Set.mem_ofPred_eq, hc]
      constructor
      · rintro ⟨⟨h5, -⟩ | h5, h6⟩
        · exact ⟨h5, h6⟩
        · have := hafter x h5; order
      · rintro ⟨h5, h6⟩; exact ⟨Or.inl ⟨h5, by order⟩, h6⟩
    · have hk : kth (I := I) (e :: l) k = kth l k' := by simp only [kth, h1, bind, Except.bind]
      have hdis : ∀ P : I → Prop, Disjoint {x : I | start e.1 ≤ x ∧ x ≤ stop e.1} {x : I | Covered l x ∧ P x} := fun P => by
        rw [Set.disjoint_left]; rintro x ⟨-, h5⟩ ⟨h6, -⟩
        have := hafter x h6; order
      rw [hk]
      rcases ih hl k' with ⟨p, i1, i2, i3⟩ | ⟨i1, i2⟩
      · refine Or.inl ⟨p, i1, (hc p).2 (Or.inr i2), ?_⟩
        have : {x | Covered (e :: l) x ∧ x < p} = {x : I | start e.1 ≤ x ∧ x ≤ stop e.1} ∪ {x : I | Covered l x ∧ x < p} := by
          have hep := hafter p i2
          ext x
          simp only [Set.mem_union, Set.mem_ofPred_eq, hc]
          constructor
          · rintro ⟨h5 | h5, h6⟩
            exacts [Or.inl h5, Or.inr ⟨h5, h6⟩]
          · rintro (h5 | ⟨h5, h6⟩)
            · exact ⟨Or.inl h5, lt_of_le_of_lt h5.2 hep⟩
            · exact ⟨Or.inr h5, h6⟩
        rw [this, Set.encard_union_eq (hdis _), i3, h2]
      · refine Or.inr ⟨i1, ?_⟩
        have : {x : I | Covered (e :: l) x} = {x : I | start e.1 ≤ x ∧ x ≤ stop e.1} ∪ {x : I | Covered l x ∧ True} := by
          ext x; simp [hc]
        rw [this, Set.encard_union_eq (hdis _), ← h2]
        simp only [and_true]
        exact add_le_add_right i2 _

/-- **C148**: for every map and every number the client does not panic, and finds the point `p` iff `p` is in an entry and exactly that many points of the
entries are before `p`; it finds none iff the entries have no more points than that. -/
theorem C148_kth {m : NoditMap K V} (h : WF (I := I) m.iter) (k : Nat) :
    ∃ r : Option I, kth m.iter k = .ok r ∧ (∀ p, r = some p ↔ (∃ e ∈ m.iter, Mem p e.1) ∧ {x | (∃ e ∈ m.iter, Mem x e.1) ∧ x < p}.encard = k) ∧
      (r = none ↔ {x : I | ∃ e ∈ m.iter, Mem x e.1}.encard ≤ k) := by
  have hlow : ∀ p : I, Covered m.iter p → {x | Covered m.iter x ∧ x < p}.encard + 1 ≤ {x : I | Covered m.iter x}.encard := fun p hp => by
    rw [← Set.encard_insert_of_notMem (a := p) (by rintro ⟨-, h⟩; exact lt_irrefl _ h)]
    refine Set.encard_le_encard ?_
    rintro x (rfl | hx)
    exacts [hp, hx.1]
  have hmono : ∀ p q : I, Covered m.iter p → p < q → {x | Covered m.iter x ∧ x < p}.encard + 1 ≤ {x | Covered m.iter x ∧ x < q}.encard := fun p q hp hpq => by
    rw [← Set.encard_insert_of_notMem (a := p) (by rintro ⟨-, h⟩; exact lt_irrefl _ h)]
    refine Set.encard_le_encard ?_
    rintro x (rfl | hx)
    exacts [⟨hp, hpq⟩, ⟨hx.1, lt_trans hx.2 hpq⟩]
  have hno : ¬ ((k : ℕ∞) + 1 ≤ k) := by norm_cast; omega
  rcases kth_spec m.iter h k with ⟨p, h1, h2, h3⟩ | ⟨h1, h2⟩
  · refine ⟨some p, h1, fun q => ⟨fun hq => ?_, fun ⟨q1, q2⟩ => ?_⟩, ⟨fun hc => (by cases hc), fun hc => ?_⟩⟩
    · cases hq; exact ⟨h2, h3⟩
    · rcases lt_trichotomy p q with hlt | rfl | hlt
      · exact absurd (le_of_le_of_eq (le_of_eq_of_le (by rw [h3]) (hmono p q h2 hlt)) q2) hno
      · rfl
      · exact absurd (le_of_le_of_eq (le_of_eq_of_le (congrArg (· + 1) q2.symm) (hmono q p q1 hlt)) h3) hno
    · exact absurd (le_trans (le_of_eq_of_le (by rw [h3]) (hlow p h2)) hc) hno
  · refine ⟨none, h1, fun q => ⟨fun hq => (by cases hq), fun ⟨q1, q2⟩ => ?_⟩, ⟨fun _ => h2, fun _ => rfl⟩⟩
    exact absurd (le_trans (le_of_eq_of_le (congrArg (· + 1) q2.symm) (hlow q q1)) h2) hno

end Nodit.Kth
