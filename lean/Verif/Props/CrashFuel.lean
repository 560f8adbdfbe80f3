import Verif.CrashSet
import Verif.CrashGq
import Verif.CrashZ
import Verif.Props.Demo
/-!
# Panics of user code are never swallowed (C116)

For every changing call of every container there is a number of runs of user code the call makes; a panic in one of
these comes out of the call as that panic, and a panic later than that does not affect the call at all: its result and the
container are those of the undisturbed call. A panic in the very first run leaves the container as it was.
-/
set_option linter.unusedSectionVars false
namespace Nodit.Crash
open PointType Spec Act

/-- The program runs user code `N` times in state `s`: a panic in one of these runs comes out; later ones do not matter. -/
def Runs {S α : Type} (a : Act S α) (s : S) (N : Nat) : Prop :=
  (∀ n < N, (a s (some n)).1 = .error .user) ∧
  (∀ n, N ≤ n → a s (some n) = ((a s none).1, (a s none).2.1, some (n - N))) ∧
  (a s none).2.2 = none ∧ (a s none).1 ≠ .error .user

/-- for every state there is such a number -/
def Fuelled {S α : Type} (a : Act S α) : Prop := ∀ s, ∃ N, Runs a s N

/-- as `Fuelled`; user code runs first of all, before the state is changed -/
def Starts {S α : Type} (a : Act S α) : Prop := ∀ s, (∃ N, 1 ≤ N ∧ Runs a s N) ∧ a s (some 0) = (.error .user, s, some 0)

section Laws
variable {S T α β : Type}

theorem fuelled_pure (x : α) : Fuelled (pure x : Act S α) := fun _ =>
  ⟨0, by simp, fun _ _ => rfl, rfl, by intro h; cases h⟩

theorem fuelled_get : Fuelled (get : Act S S) := fun _ => ⟨0, by simp, fun _ _ => rfl, rfl, by intro h; cases h⟩

theorem fuelled_set (s' : S) : Fuelled (Act.set s' : Act S Unit) := fun _ =>
  ⟨0, by simp, fun _ _ => rfl, rfl, by intro h; cases h⟩

theorem fuelled_res (x : Res α) : Fuelled (res x : Act S α) := fun _ =>
  ⟨0, by simp, fun n _ => by cases x <;> rfl, by cases x <;> rfl, by cases x <;> (intro h; cases h)⟩

theorem starts_user : Starts (user : Act S Unit) := fun s =>
  ⟨⟨1, le_refl _, fun n hn => by obtain rfl : n = 0 := by omega
                                 rfl,
    fun n hn => by obtain ⟨k, rfl⟩ : ∃ k, n = k + 1 := ⟨n - 1, by omega⟩
                   rfl,
    rfl, by intro h; cases h⟩, rfl⟩

theorem Starts.fuelled {a : Act S α} (h : Starts a) : Fuelled a := fun s => by
  obtain ⟨⟨N, -, hN⟩, -⟩ := h s
  exact ⟨N, hN⟩

theorem bind_eq (a : Act S α) (f : α → Act S β) (s : S) (n : Option Nat) :
    (a >>= f) s n = match a s n with
      | (.ok x, s', n') => f x s' n'
      | (.error e, s', n') => (.error e, s', n') := rfl

theorem runs_bind {a : Act S α} {f : α → Act S β} {s : S} {N : Nat} (ha : Runs a s N) (hf : ∀ x, Fuelled (f x)) :
    ∃ M, N ≤ M ∧ Runs (a >>= f) s M := by
  obtain ⟨h1, h2, h3, h4⟩ := ha
  rcases hr : a s none with ⟨r, s', n'⟩
  rw [hr] at h2 h3 h4
  dsimp only at h2 h3 h4
  subst h3
  cases r with
  | error e =>
    refine ⟨N, le_refl _, fun n hn => ?_, fun n hn => ?_, ?_, ?_⟩
    · have := h1 n hn
      rw [bind_eq]
      rcases hq : a s (some n) with ⟨q, t, k⟩
      rw [hq] at this
      dsimp only at this
      subst this
      rfl
    · rw [bind_eq, bind_eq, h2 n hn, hr]
    · rw [bind_eq, hr]
    · rw [bind_eq, hr]
      dsimp only
      intro h
      cases h
      exact h4 rfl
  | ok x =>
    obtain ⟨M, g1, g2, g3, g4⟩ := hf x s'
    refine ⟨N + M, by omega, fun n hn => ?_, fun n hn => ?_, ?_, ?_⟩
    · rw [bind_eq]
      by_cases hlt : n < N
      · have := h1 n hlt
        rcases hq : a s (some n) with ⟨q, t, k⟩
        rw [hq] at this
        dsimp only at this
        subst this
        rfl
      · rw [h2 n (by omega)]
        exact g1 _ (by omega)
    · rw [bind_eq, bind_eq, h2 n (by omega), hr]
      dsimp only
      rw [g2 (n - N) (by omega), Nat.sub_sub]
    · rw [bind_eq, hr]
      exact g3
    · rw [bind_eq, hr]
      exact g4

theorem Fuelled.bind {a : Act S α} {f : α → Act S β} (ha : Fuelled a) (hf : ∀ x, Fuelled (f x)) : Fuelled (a >>= f) :=
  fun s => by
    obtain ⟨N, hN⟩ := ha s
    obtain ⟨M, -, hM⟩ := runs_bind hN hf
    exact ⟨M, hM⟩

theorem Starts.bind {a : Act S α} {f : α → Act S β} (ha : Starts a) (hf : ∀ x, Fuelled (f x)) : Starts (a >>= f) :=
  fun s => by
    obtain ⟨⟨N, h1, hN⟩, h0⟩ := ha s
    obtain ⟨M, hM, hr⟩ := runs_bind hN hf
    exact ⟨⟨M, by omega, hr⟩, by rw [bind_eq, h0]⟩

/-- the same program on a part of a larger state -/
theorem Fuelled.lift {a : T → Act S α} (ha : ∀ t, Fuelled (a t)) (down : T → S) (up : T → S → T) :
    Fuelled (fun t n => ((a t (down t) n).1, up t (a t (down t) n).2.1, (a t (down t) n).2.2) : Act T α) := fun t => by
  obtain ⟨N, h1, h2, h3, h4⟩ := ha t (down t)
  refine ⟨N, h1, fun n hn => ?_, h3, h4⟩
  dsimp only
  rw [h2 n hn]
end Laws

variable {I K Q V D : Type} [PointType I] [IntervalType I K] [IntervalType I Q]

theorem fuelled_withCursor {α : Type} (at_ : List (K × V) → BTree.Cursor K V) {body : Nat → Act (BTree.Cursor K V) α}
    (h : ∀ n, Fuelled (body n)) : Fuelled (withCursor at_ body) :=
  Fuelled.lift (T := NoditMap K V) (a := fun m => body ((at_ m.inner).after.length + 1)) (fun _ => h _)
    (fun m => at_ m.inner) (fun _ c => ⟨c.entries⟩)

theorem fuelled_removeLoop (q : Q) (n : Nat) : Fuelled (removeLoop (K := K) (V := V) (I := I) q n) := by
  induction n with
  | zero => exact fuelled_pure _
  | succ n ih =>
    unfold removeLoop
    refine fuelled_get.bind fun c => ?_
    split
    · exact fuelled_pure _
    · refine starts_user.fuelled.bind fun _ => (fuelled_res _).bind fun b => ?_
      split
      · exact (fuelled_set _).bind fun _ => (fuelled_res _).bind fun _ => ih.bind fun _ => fuelled_pure _
      · exact fuelled_pure _

theorem starts_removeOverlapping (q : Q) : Starts (removeOverlapping (K := K) (V := V) (I := I) q) :=
  starts_user.bind fun _ => (fuelled_res _).bind fun _ => starts_user.fuelled.bind fun _ =>
    fuelled_withCursor _ (fuelled_removeLoop q)

theorem fuelled_putBack (value : V) (p : Option (Interval I)) : Fuelled (putBack (K := K) value p) := by
  cases p with
  | none => exact fuelled_pure _
  | some p => exact starts_user.fuelled.bind fun _ => fuelled_get.bind fun _ => fuelled_set _

theorem fuelled_cutLoop (q : Q) (n : Nat) : Fuelled (cutLoop (K := K) (V := V) (I := I) q n) := by
  induction n with
  | zero => exact fuelled_pure _
  | succ n ih =>
    unfold cutLoop
    refine fuelled_get.bind fun c => ?_
    split
    · exact fuelled_pure _
    · refine starts_user.fuelled.bind fun _ => (fuelled_res _).bind fun b => ?_
      split
      · exact fuelled_pure _
      · exact (fuelled_set _).bind fun _ => (fuelled_res _).bind fun _ => starts_user.fuelled.bind fun _ =>
          (fuelled_res _).bind fun _ => (fuelled_putBack _ _).bind fun _ => (fuelled_putBack _ _).bind fun _ =>
          (fuelled_res _).bind fun _ => starts_user.fuelled.bind fun _ => ih.bind fun _ => fuelled_pure _

theorem starts_cut (q : Q) : Starts (cut (K := K) (V := V) (I := I) q) :=
  starts_user.bind fun _ => (fuelled_res _).bind fun _ => starts_user.fuelled.bind fun _ =>
    fuelled_withCursor _ (fuelled_cutLoop q)

theorem starts_insertUnchecked (k : K) (v : V) : Starts (insertUnchecked (I := I) k v) :=
  starts_user.bind fun _ => fuelled_get.bind fun _ => fuelled_set _

theorem starts_insertStrict (k : K) (v : V) : Starts (insertStrict (I := I) k v) := by
  refine starts_user.bind fun _ => (fuelled_res _).bind fun _ => starts_user.fuelled.bind fun _ => fuelled_get.bind fun m =>
    (fuelled_res _).bind fun b => ?_
  split
  · exact fuelled_pure _
  · exact (starts_insertUnchecked k v).fuelled.bind fun _ => fuelled_pure _

theorem starts_removeBy (comp : K → Ordering) : Starts (removeBy (V := V) comp) :=
  starts_user.bind fun _ => fuelled_get.bind fun _ => (fuelled_set _).bind fun _ => starts_user.fuelled

theorem starts_insertMergeWithComps (k : K) (v : V) (getStart getEnd : NoditMap K V → V → Option K)
    {removeStart removeEnd : V → Act (NoditMap K V) Unit} (h1 : ∀ v, Fuelled (removeStart v)) (h2 : ∀ v, Fuelled (removeEnd v)) :
    Starts (insertMergeWithComps (I := I) k v getStart getEnd removeStart removeEnd) :=
  starts_user.bind fun _ => (fuelled_res _).bind fun _ => starts_user.fuelled.bind fun _ => fuelled_get.bind fun _ =>
    (starts_removeOverlapping k).fuelled.bind fun _ => starts_user.fuelled.bind fun _ => (h1 v).bind fun _ =>
    (h2 v).bind fun _ => (starts_insertUnchecked _ v).fuelled.bind fun _ => fuelled_pure _

theorem starts_insertMergeTouching (k : K) (v : V) : Starts (insertMergeTouching (I := I) k v) := by
  refine starts_user.bind fun _ => (fuelled_res _).bind fun _ => starts_user.fuelled.bind fun _ => fuelled_get.bind fun m =>
    (fuelled_res _).bind fun b => ?_
  split
  · exact fuelled_pure _
  · exact (starts_insertMergeWithComps k v _ _ (fun _ => (starts_removeBy _).fuelled)
      (fun _ => (starts_removeBy _).fuelled)).fuelled.bind fun _ => fuelled_pure _

theorem starts_insertMergeTouchingIfValuesEqual [BEq V] (k : K) (v : V) :
    Starts (insertMergeTouchingIfValuesEqual (I := I) k v) := by
  refine starts_user.bind fun _ => (fuelled_res _).bind fun _ => starts_user.fuelled.bind fun _ => fuelled_get.bind fun m =>
    (fuelled_res _).bind fun b => ?_
  split
  · exact fuelled_pure _
  · refine (starts_insertMergeWithComps k v _ _ (fun _ => ?_) (fun _ => ?_)).fuelled.bind fun _ => fuelled_pure _
    all_goals
      refine starts_user.fuelled.bind fun _ => fuelled_get.bind fun _ => ?_
      split
      · exact (starts_removeBy _).fuelled
      · exact fuelled_pure _

theorem starts_insertMergeOverlapping (k : K) (v : V) : Starts (insertMergeOverlapping (I := I) k v) :=
  starts_user.bind fun _ => (fuelled_res _).bind fun _ =>
    (starts_insertMergeWithComps k v _ _ (fun _ => fuelled_pure _) (fun _ => fuelled_pure _)).fuelled

theorem starts_insertMergeTouchingOrOverlapping (k : K) (v : V) : Starts (insertMergeTouchingOrOverlapping (I := I) k v) :=
  starts_user.bind fun _ => (fuelled_res _).bind fun _ =>
    (starts_insertMergeWithComps k v _ _ (fun _ => (starts_removeBy _).fuelled) (fun _ => (starts_removeBy _).fuelled)).fuelled

theorem starts_insertOverwrite (k : K) (v : V) : Starts (insertOverwrite (I := I) k v) :=
  starts_user.bind fun _ => (fuelled_res _).bind fun _ => (starts_cut k).fuelled.bind fun _ =>
    (starts_insertUnchecked k v).fuelled.bind fun _ => fuelled_pure _

theorem starts_step [BEq V] (op : Op I K V) : Starts (step op) := by
  cases op
  case insertStrict k v => exact (starts_insertStrict k v).bind fun _ => fuelled_pure _
  case insertMergeTouching k v => exact (starts_insertMergeTouching k v).bind fun _ => fuelled_pure _
  case insertMergeTouchingIfValuesEqual k v =>
    exact (starts_insertMergeTouchingIfValuesEqual k v).bind fun _ => fuelled_pure _
  case insertMergeOverlapping k v => exact (starts_insertMergeOverlapping k v).bind fun _ => fuelled_pure _
  case insertMergeTouchingOrOverlapping k v =>
    exact (starts_insertMergeTouchingOrOverlapping k v).bind fun _ => fuelled_pure _
  case insertOverwrite k v => exact (starts_insertOverwrite k v).bind fun _ => fuelled_pure _
  case cut q => exact (starts_cut q).bind fun _ => fuelled_pure _
  case removeOverlapping q => exact (starts_removeOverlapping q).bind fun _ => fuelled_pure _
  all_goals
    exact starts_user.bind fun _ => fuelled_get.bind fun _ => (fuelled_res _).bind fun _ => (fuelled_set _).bind fun _ =>
      fuelled_pure _

theorem starts_setStep (op : SetCall I K) : Starts (setStep op) := fun s => by
  obtain ⟨⟨N, hN, h1, h2, h3, h4⟩, h0⟩ := starts_step op.toMap s.inner
  refine ⟨⟨N, hN, fun n hn => ?_, fun n hn => ?_, h3, ?_⟩, ?_⟩
  · simp only [setStep, h1 n hn, Except.map]
  · simp only [setStep, h2 n hn]
  · intro h
    simp only [setStep] at h
    revert h4 h
    cases (step op.toMap s.inner none).1 with
    | ok _ => intro _ h; cases h
    | error e =>
      intro h4 h
      cases h
      exact h4 rfl
  · simp only [setStep, h0, Except.map]

section gq
variable [DecidableEq D]

theorem fuelled_inner {α : Type} {x : Act (NoditMap K (Finset D)) α} (h : Fuelled x) : Fuelled (inner x) :=
  Fuelled.lift (T := Gqdit K D) (a := fun _ => x) (fun _ => h) (fun g => g.inner) (fun _ m => ⟨m⟩)

theorem fuelled_onSelf {α : Type} {x : Act (Gqdit K D) α} (h : Fuelled x) : Fuelled (onSelf x) :=
  Fuelled.lift (T := Gqdit K D × Gqdit K D) (a := fun _ => x) (fun _ => h) (fun g => g.1) (fun g m => (m, g.2))

theorem fuelled_onOther {α : Type} {x : Act (Gqdit K D) α} (h : Fuelled x) : Fuelled (onOther x) :=
  Fuelled.lift (T := Gqdit K D × Gqdit K D) (a := fun _ => x) (fun _ => h) (fun g => g.2) (fun g m => (g.1, m))

theorem fuelled_putBackIds (f : Finset D → Finset D) (l : List (K × Finset D)) : Fuelled (putBackIds (I := I) f l) := by
  induction l with
  | nil => exact fuelled_pure _
  | cons e rest ih =>
    obtain ⟨k, ids⟩ := e
    refine starts_user.fuelled.bind fun _ => (starts_insertMergeTouchingIfValuesEqual k (f ids)).fuelled.bind fun r => ?_
    cases r with
    | ok _ => exact ih
    | error _ => exact fuelled_res _

theorem starts_gqStep (op : GqOp I K D) : Starts (gqStep op) := by
  cases op
  case insert ids k =>
    refine starts_user.bind fun _ => (fuelled_res _).bind fun _ => ?_
    split
    · exact fuelled_pure _
    · exact fuelled_inner ((starts_cut k).fuelled.bind fun _ => fuelled_putBackIds _ _)
  case cutWithIdentifiers ids q =>
    refine starts_user.bind fun _ => (fuelled_res _).bind fun _ => ?_
    split
    · exact fuelled_pure _
    · exact fuelled_inner ((starts_cut q).fuelled.bind fun _ => fuelled_putBackIds _ _)
  case cutAllIdentifiers q =>
    exact starts_user.bind fun _ => (fuelled_res _).bind fun _ =>
      fuelled_inner ((starts_cut q).fuelled.bind fun _ => fuelled_putBackIds _ _)

theorem fuelled_insertAllIds (l : List (K × Finset D)) : Fuelled (insertAllIds (I := I) l) := by
  induction l with
  | nil => exact fuelled_pure _
  | cons e rest ih => exact (starts_gqStep (.insert e.2 e.1)).fuelled.bind fun _ => ih

theorem starts_append : Starts (append (I := I) (K := K) (D := D)) :=
  starts_user.bind fun _ => (fuelled_res _).bind fun _ =>
    (fuelled_onOther (fuelled_inner (starts_removeOverlapping _).fuelled)).bind fun _ =>
    fuelled_onSelf (fuelled_insertAllIds _)
end gq

theorem fuelled_zPutBefore (store : List V) (p : Option (Interval I)) : Fuelled (zPutBefore (K := K) store p) := by
  cases p with
  | none => exact fuelled_pure _
  | some p => exact starts_user.fuelled.bind fun _ => fuelled_get.bind fun _ => (fuelled_set _).bind fun _ =>
      fuelled_get.bind fun _ => fuelled_set _

theorem fuelled_zPutAfter (store : List V) (p : Option (Interval I)) : Fuelled (zPutAfter (K := K) store p) := by
  cases p with
  | none => exact fuelled_pure _
  | some p => exact fuelled_get.bind fun _ => (fuelled_set _).bind fun _ => starts_user.fuelled.bind fun _ =>
      fuelled_get.bind fun _ => fuelled_set _

theorem fuelled_zCutLoop (q : Q) (n : Nat) : Fuelled (zCutLoop (K := K) (V := V) (I := I) q n) := by
  induction n with
  | zero => exact fuelled_pure _
  | succ n ih =>
    unfold zCutLoop
    refine fuelled_get.bind fun c => ?_
    split
    · exact fuelled_pure _
    · refine starts_user.fuelled.bind fun _ => (fuelled_res _).bind fun b => ?_
      split
      · exact fuelled_pure _
      · refine (fuelled_set _).bind fun _ => (fuelled_res _).bind fun _ => starts_user.fuelled.bind fun _ =>
          (fuelled_res _).bind fun _ => (fuelled_zPutBefore _ _).bind fun _ => (fuelled_zPutAfter _ _).bind fun _ =>
          fuelled_get.bind fun _ => ?_
        split
        · exact fuelled_res _
        · exact (fuelled_set _).bind fun _ => starts_user.fuelled.bind fun _ => (fuelled_res _).bind fun _ =>
            ih.bind fun _ => fuelled_pure _

theorem starts_zCut (q : Q) : Starts (zCut (K := K) (V := V) (I := I) q) := by
  refine starts_user.bind fun _ => (fuelled_res _).bind fun _ => starts_user.fuelled.bind fun _ => ?_
  let cur : ZosditMap K V → BTree.Cursor K (List V) := fun m =>
    let c := BTree.upperBound (exclusiveComp (start q) .lt) m.inner
    if c.key.isNone then c.moveNext else c
  exact Fuelled.lift (T := ZosditMap K V) (S := ZCur K V) (a := fun m => zCutLoop q ((cur m).after.length + 1))
    (fun _ => fuelled_zCutLoop q _) (fun m => (m.len, cur m)) (fun _ c => ⟨c.1, c.2.entries⟩)

theorem starts_zStep (op : ZOp I K V) : Starts (zStep op) := by
  cases op
  case cut q => exact (starts_zCut q).bind fun _ => fuelled_pure _
  all_goals
    exact starts_user.bind fun _ => fuelled_get.bind fun _ => (fuelled_res _).bind fun _ => (fuelled_set _).bind fun _ =>
      fuelled_pure _

/-- the form in which the property is stated -/
theorem Starts.spec {S α : Type} {a : Act S α} (h : Starts a) (s : S) :
    ∃ N ≥ 1, (∀ n, (a s (some n)).1 = .error .user ↔ n < N) ∧
      (∀ n ≥ N, (a s (some n)).1 = (a s none).1 ∧ (a s (some n)).2.1 = (a s none).2.1) ∧
      (a s (some 0)).2.1 = s := by
  obtain ⟨⟨N, hN, h1, h2, h3, h4⟩, h0⟩ := h s
  refine ⟨N, hN, fun n => ⟨fun hn => ?_, h1 n⟩, fun n hn => by rw [h2 n hn]; exact ⟨rfl, rfl⟩, by rw [h0]⟩
  by_contra hlt
  rw [h2 n (by omega)] at hn
  exact h4 hn

/-- **C116**, maps: a call makes some number `N` of runs of user code. If one of them panics, this panic (and nothing else)
comes out of the call; a panic that would come later does not change the result of the call or what it does to the map; and
if the first run panics the map is as before. -/
theorem C116_map [BEq V] (m : NoditMap K V) (op : Op I K V) :
    ∃ N ≥ 1, (∀ n, (step op m (some n)).1 = .error .user ↔ n < N) ∧
      (∀ n ≥ N, (step op m (some n)).1 = (step op m none).1 ∧ (step op m (some n)).2.1 = (step op m none).2.1) ∧
      (step op m (some 0)).2.1 = m :=
  (starts_step op).spec m

/-- **C116**, sets -/
theorem C116_set (s : NoditSet K) (op : SetCall I K) :
    ∃ N ≥ 1, (∀ n, (setStep op s (some n)).1 = .error .user ↔ n < N) ∧
      (∀ n ≥ N, (setStep op s (some n)).1 = (setStep op s none).1 ∧
        (setStep op s (some n)).2.1 = (setStep op s none).2.1) ∧
      (setStep op s (some 0)).2.1 = s :=
  (starts_setStep op).spec s

/-- **C116**, `Gqdit`: `insert` and the cuts -/
theorem C116_gqdit [DecidableEq D] (g : Gqdit K D) (op : GqOp I K D) :
    ∃ N ≥ 1, (∀ n, (gqStep op g (some n)).1 = .error .user ↔ n < N) ∧
      (∀ n ≥ N, (gqStep op g (some n)).1 = (gqStep op g none).1 ∧
        (gqStep op g (some n)).2.1 = (gqStep op g none).2.1) ∧
      (gqStep op g (some 0)).2.1 = g :=
  (starts_gqStep op).spec g

/-- **C116**, `Gqdit`: `append`, on the pair of `self` and `other` -/
theorem C116_append [DecidableEq D] (g : Gqdit K D × Gqdit K D) :
    ∃ N ≥ 1, (∀ n, (append (I := I) g (some n)).1 = .error .user ↔ n < N) ∧
      (∀ n ≥ N, (append (I := I) g (some n)).1 = (append (I := I) g none).1 ∧
        (append (I := I) g (some n)).2.1 = (append (I := I) g none).2.1) ∧
      (append (I := I) g (some 0)).2.1 = g :=
  starts_append.spec g

/-- **C116**, `ZosditMap` -/
theorem C116_zosdit (m : ZosditMap K V) (op : ZOp I K V) :
    ∃ N ≥ 1, (∀ n, (zStep op m (some n)).1 = .error .user ↔ n < N) ∧
      (∀ n ≥ N, (zStep op m (some n)).1 = (zStep op m none).1 ∧ (zStep op m (some n)).2.1 = (zStep op m none).2.1) ∧
      (zStep op m (some 0)).2.1 = m :=
  (starts_zStep op).spec m

end Nodit.Crash
