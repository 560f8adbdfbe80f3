import Verif.Props.Compact
import Verif.Props.GqditLaws
/-!
# C124: replicas converge

Several replicas of a `Gqdit` (or of a `NoditSet`), each changed locally by inserts, send copies of themselves to each other, in any order,
any number of times, directly or through others; the receiver merges the copy into its own state. Replicas that know of
the same inserts are equal.
-/
set_option linter.unusedSectionVars false
namespace Nodit.Replicas
open Spec PointType

variable {R I K D : Type} [DecidableEq R] [PointType I] [IntervalType I K] [LawfulPoint I] [LawfulInterval I K] [DecidableEq D]

/-- What happens in the system: an insert at a replica (`X` says what is inserted), or `src` sends a copy of itself to `dst`, which
merges it. A client, models no lines of `/repo`. -/
inductive Event (R X : Type) where
  | insert (r : R) (x : X)
  | send (src dst : R)

/-- The inserts a replica has heard of: its own and those of the copies merged into it. A specification, models no lines of
`/repo`. -/
def heard {X : Type} (known : R → Set X) : List (Event R X) → R → Set X
  | [] => known
  | .insert r x :: es => heard (Function.update known r (known r ∪ {x})) es
  | .send src dst :: es => heard (Function.update known dst (known dst ∪ known src)) es

/-- The replicas as `Gqdit`s: a copy is a `clone()`, merged by `append`. A client, models no lines of `/repo`; for the calls see
`gqdit/mod.rs`. -/
def runGqdit (st : R → Gqdit K D) : List (Event R (Finset D × K)) → Res (R → Gqdit K D)
  | [] => pure st
  | .insert r x :: es => do
    let g ← (st r).insert (I := I) x.1 x.2
    runGqdit (Function.update st r g) es
  | .send src dst :: es => do
    let (g, _) ← (st dst).append (I := I) (st src)
    runGqdit (Function.update st dst g) es

/-- what a replica should contain -/
def Knows (g : Gqdit K D) (S : Set (Finset D × K)) : Prop :=
  ∃ f : I → Finset D, Gqdit.Rep g f ∧ ∀ p d, d ∈ f p ↔ ∃ x ∈ S, Mem p x.2 ∧ d ∈ x.1

theorem run_knows {st : R → Gqdit K D} {known : R → Set (Finset D × K)} (h : ∀ r, Knows (I := I) (st r) (known r))
    (es : List (Event R (Finset D × K))) (hv : ∀ r ids k, Event.insert r (ids, k) ∈ es → Valid (I := I) k) :
    ∃ st', runGqdit (I := I) st es = .ok st' ∧ ∀ r, Knows (I := I) (st' r) (heard known es r) := by
  classical
  induction es generalizing st known with
  | nil => exact ⟨st, rfl, h⟩
  | cons e es ih =>
    cases e with
    | insert r x =>
      obtain ⟨f, hf, hk⟩ := h r
      obtain ⟨g, g1, g2⟩ := hf.insert (hv r x.1 x.2 (by simp)) x.1
      obtain ⟨st', s1, s2⟩ := ih (st := Function.update st r g) (known := Function.update known r (known r ∪ {x})) (fun r' => by
        by_cases hr : r' = r
        · subst hr
          rw [Function.update_self, Function.update_self]
          refine ⟨_, g2, fun p d => ?_⟩
          simp only [Set.mem_union, Set.mem_singleton_iff, or_and_right, exists_or, exists_eq_left, ← hk]
          by_cases hp : Mem p x.2 <;> simp [hp]
        · rw [Function.update_of_ne hr, Function.update_of_ne hr]
          exact h r') fun r' ids k hm => hv r' ids k (by simp [hm])
      exact ⟨st', by simp only [runGqdit, g1, bind, Except.bind]; exact s1, s2⟩
    | send src dst =>
      obtain ⟨f, hf, hk⟩ := h dst
      obtain ⟨f', hf', hk'⟩ := h src
      obtain ⟨g, g1, g2⟩ := hf.append hf'
      obtain ⟨st', s1, s2⟩ := ih (st := Function.update st dst g) (known := Function.update known dst (known dst ∪ known src)) (fun r' => by
        by_cases hr : r' = dst
        · subst hr
          rw [Function.update_self, Function.update_self]
          refine ⟨_, g2, fun p d => ?_⟩
          simp only [Set.mem_union, or_and_right, exists_or, ← hk, ← hk', Finset.mem_union]
        · rw [Function.update_of_ne hr, Function.update_of_ne hr]
          exact h r') fun r' ids k hm => hv r' ids k (by simp [hm])
      exact ⟨st', by simp only [runGqdit, g1, bind, Except.bind]; exact s1, s2⟩

/-- **C124**: from new `Gqdit`s, whatever the schedule of inserts and deliveries: no call panics; a replica holds at every point exactly
the identifiers of the inserts it has heard of that cover the point; and two replicas that have heard of the same inserts are equal. -/
theorem C124_gqdit_replicas_converge {g₀ : Gqdit K D} (h₀ : Gqdit.new (I := I) = .ok g₀) (es : List (Event R (Finset D × K)))
    (hv : ∀ r ids k, Event.insert r (ids, k) ∈ es → Valid (I := I) k) :
    ∃ st, runGqdit (I := I) (fun _ => g₀) es = .ok st ∧
      (∀ r (p : I), ∃ ids, (st r).identifiersAtPoint p = .ok ids ∧
        ∀ d, d ∈ ids ↔ ∃ x ∈ heard (fun _ => ∅) es r, Mem p x.2 ∧ d ∈ x.1) ∧
      ∀ r r', heard (fun _ => ∅) es r = heard (fun _ => ∅) es r' → st r = st r' := by
  obtain ⟨g, h1, h2⟩ := Gqdit.new_rep (I := I) (K := K) (D := D)
  rw [h₀] at h1; cases h1
  obtain ⟨st, s1, s2⟩ := run_knows (I := I) (R := R) (st := fun _ => g₀) (known := fun _ => ∅) (fun _ => ⟨_, h2, by simp⟩) es hv
  refine ⟨st, s1, fun r p => ?_, fun r r' heq => ?_⟩
  · obtain ⟨f, hf, hk⟩ := s2 r
    exact ⟨f p, hf.identifiers p, hk p⟩
  · obtain ⟨f, hf, hk⟩ := s2 r
    obtain ⟨f', hf', hk'⟩ := s2 r'
    have : f = f' := funext fun p => Finset.ext fun d => by rw [hk, hk', heq]
    exact hf.eq (this ▸ hf')

/-! ## Sets -/

/-- The replicas as `NoditSet`s: the receiver inserts all intervals of the copy with `insert_merge_touching_or_overlapping`.
A client, models no lines of `/repo`; for the calls see `nodit/set.rs`. -/
def runSet (st : R → NoditSet K) : List (Event R K) → Res (R → NoditSet K)
  | [] => pure st
  | .insert r k :: es => do
    let (s, _) ← (st r).insertMergeTouchingOrOverlapping (I := I) k
    runSet (Function.update st r s) es
  | .send src dst :: es => do
    let s ← unionLoop (I := I) (st dst) (st src).iter
    runSet (Function.update st dst s) es

/-- the set was made by merging inserts, and its points are those of the intervals in `S` -/
def KnowsSet (s : NoditSet K) (S : Set K) : Prop :=
  ∃ ks : List K, s = (NoditSet.new : NoditSet K).run (ks.map fun k => (.insertMergeTouchingOrOverlapping k : SetOp I K)) ∧
    points s = {p : I | ∃ k ∈ S, Mem p k}

theorem run_append (s : NoditSet K) (a b : List (SetOp I K)) : s.run (a ++ b) = (s.run a).run b := by
  induction a generalizing s with
  | nil => rfl
  | cons x a ih =>
    rw [List.cons_append, NoditSet.run, NoditSet.run]
    cases s.step x with
    | error _ => exact ih _
    | ok _ => exact ih _

theorem KnowsSet.ascending {s : NoditSet K} {S : Set K} (h : KnowsSet (I := I) s S) : Ascending (I := I) s.iter := by
  obtain ⟨ks, rfl, -⟩ := h
  exact (C22_set_invariant (K := K) _).1

theorem KnowsSet.union {s : NoditSet K} {S : Set K} (h : KnowsSet (I := I) s S) (ks : List K) (hv : ∀ k ∈ ks, Valid (I := I) k) {T : Set K}
    (hT : ∀ p : I, (∃ k ∈ ks, Mem p k) ↔ ∃ k ∈ T, Mem p k) :
    ∃ s', unionLoop (I := I) s ks = .ok s' ∧ KnowsSet (I := I) s' (S ∪ T) := by
  have hA := h.ascending
  obtain ⟨s', a1, a2, a3⟩ := C100_union hA ks hv
  refine ⟨s', a1, ?_⟩
  have hr := Compact.unionLoop_run hA ks hv
  rw [a1] at hr
  cases hr
  obtain ⟨l, hl, hp⟩ := h
  refine ⟨l ++ ks, ?_, ?_⟩
  · rw [List.map_append, run_append, ← hl]
  · rw [a3, hp]
    ext p
    simp only [Set.mem_union, Set.mem_ofPred_eq, hT, or_and_right, exists_or]

theorem run_knows_set {st : R → NoditSet K} {known : R → Set K} (h : ∀ r, KnowsSet (I := I) (st r) (known r))
    (es : List (Event R K)) (hv : ∀ r k, Event.insert r k ∈ es → Valid (I := I) k) :
    ∃ st', runSet (I := I) st es = .ok st' ∧ ∀ r, KnowsSet (I := I) (st' r) (heard known es r) := by
  induction es generalizing st known with
  | nil => exact ⟨st, rfl, h⟩
  | cons e es ih =>
    have upd : ∀ (r : R) (s : NoditSet K) (S : Set K), KnowsSet (I := I) s S →
        ∀ r', KnowsSet (I := I) (Function.update st r s r') (Function.update known r S r') := by
      intro r s S hs r'
      by_cases hr : r' = r
      · subst hr
        rw [Function.update_self, Function.update_self]
        exact hs
      · rw [Function.update_of_ne hr, Function.update_of_ne hr]
        exact h r'
    cases e with
    | insert r k =>
      obtain ⟨s, s1, s2⟩ := (h r).union [k] (by simpa using hv r k (by simp)) (T := {k}) (by simp)
      obtain ⟨st', t1, t2⟩ := ih (upd r s _ s2) fun r' k hm => hv r' k (by simp [hm])
      refine ⟨st', ?_, t2⟩
      simp only [unionLoop, bind, Except.bind, pure, Except.pure] at s1
      cases hx : (st r).insertMergeTouchingOrOverlapping (I := I) k with
      | error _ => rw [hx] at s1; cases s1
      | ok x =>
        rw [hx] at s1; cases s1
        simp only [runSet, hx, bind, Except.bind]
        exact t1
    | send src dst =>
      have hp : ∀ p : I, (∃ k ∈ (st src).iter, Mem p k) ↔ ∃ k ∈ known src, Mem p k := fun p => by
        obtain ⟨-, -, hp⟩ := h src
        exact Set.ext_iff.1 hp p
      obtain ⟨s, s1, s2⟩ := (h dst).union (st src).iter (h src).ascending.1 hp
      obtain ⟨st', t1, t2⟩ := ih (upd dst s _ s2) fun r' k hm => hv r' k (by simp [hm])
      exact ⟨st', by simp only [runSet, s1, bind, Except.bind]; exact t1, t2⟩

/-- **C124**, sets: from empty `NoditSet`s, whatever the schedule of inserts and deliveries: no call panics, a replica has exactly the
points of the intervals it has heard of. -/
theorem C124_set_replicas_contents (es : List (Event R K)) (hv : ∀ r k, Event.insert r k ∈ es → Valid (I := I) k) :
    ∃ st, runSet (I := I) (fun _ => NoditSet.new) es = .ok st ∧
      ∀ r, Ascending (I := I) (st r).iter ∧ points (st r) = {p : I | ∃ k ∈ heard (fun _ => ∅) es r, Mem p k} := by
  obtain ⟨st, s1, s2⟩ := run_knows_set (I := I) (R := R) (st := fun _ => (NoditSet.new : NoditSet K)) (known := fun _ => ∅)
    (fun _ => ⟨[], rfl, by ext p; simp [points, NoditSet.new, NoditSet.iter, NoditMap.new, NoditMap.iter]⟩) es hv
  exact ⟨st, s1, fun r => ⟨(s2 r).ascending, (s2 r).choose_spec.2⟩⟩

/-- **C124**, sets: replicas (with `Interval` as interval type) that have heard of intervals with the same points are equal. -/
theorem C124_set_replicas_converge (es : List (Event R (Interval I))) (hv : ∀ r k, Event.insert r k ∈ es → Valid (I := I) k) :
    ∃ st, runSet (I := I) (fun _ => NoditSet.new) es = .ok st ∧
      ∀ r r', (∀ p : I, (∃ k ∈ heard (fun _ => ∅) es r, Mem p k) ↔ ∃ k ∈ heard (fun _ => ∅) es r', Mem p k) → st r = st r' := by
  obtain ⟨st, s1, s2⟩ := run_knows_set (I := I) (R := R) (st := fun _ => (NoditSet.new : NoditSet (Interval I))) (known := fun _ => ∅)
    (fun _ => ⟨[], rfl, by ext p; simp [points, NoditSet.new, NoditSet.iter, NoditMap.new, NoditMap.iter]⟩) es hv
  refine ⟨st, s1, fun r r' heq => ?_⟩
  obtain ⟨l, hl, hp⟩ := s2 r
  obtain ⟨l', hl', hp'⟩ := s2 r'
  rw [hl, hl']
  refine C52_set_canonical _ _ ?_ ?_ ?_
  · intro op hop
    obtain ⟨k, -, rfl⟩ := List.mem_map.1 hop
    trivial
  · intro op hop
    obtain ⟨k, -, rfl⟩ := List.mem_map.1 hop
    trivial
  · rw [← hl, ← hl', hp, hp']
    ext p
    exact heq p

end Nodit.Replicas
