import Verif.Props.CloneProps
/-!
# C98: values whose `clone()` is not the identity, through whole histories
-/
set_option linter.unusedSectionVars false
namespace Nodit
open Spec PointType InclusiveInterval
variable {I K Q V V' σ σ' : Type} [PointType I] [IntervalType I K] [IntervalType I Q]

/-- `ψ` on values and `τ` on the outside state commute with two `clone()` functions -/
def Commutes (ψ : V → V') (τ : σ → σ') (clone : CloneFn σ V) (clone' : CloneFn σ' V') : Prop :=
  ∀ v s, clone' (ψ v) (τ s) = (ψ (clone v s).1, τ (clone v s).2)

namespace NoditMap
section
variable {ψ : V → V'} {τ : σ → σ'} {clone : CloneFn σ V} {clone' : CloneFn σ' V'} (hc : Commutes ψ τ clone clone')
include hc

theorem insertClone_map (v : V) (part : Option (Interval I)) (s : σ) :
    (insertClone clone' (ψ v) part (τ s) : List (K × V') × σ') =
      Prod.map (List.map (Prod.map id ψ)) τ (insertClone clone v part s) := by
  cases part with
  | none => rfl
  | some part => simp [insertClone, hc v s]

theorem cutLoopClone_map (q : Q) (l : List (K × V)) (s : σ) :
    cutLoopClone clone' q (l.map (Prod.map id ψ)) (τ s) =
      (cutLoopClone clone q l s).map (Prod.map (List.map (Prod.map id ψ)) (Prod.map (List.map (Prod.map id ψ)) τ)) := by
  induction l generalizing s with
  | nil => rfl
  | cons e l ih =>
    obtain ⟨k, v⟩ := e
    simp only [List.map_cons, cutLoopClone, Prod.map_apply, id, bind, Except.bind, pure, Except.pure]
    cases InclusiveInterval.overlaps k q with
    | error _ => rfl
    | ok b =>
      cases b with
      | false => rfl
      | true =>
        simp only [Bool.not_true, Bool.false_eq_true, if_false]
        cases cutInterval k q with
        | error _ => rfl
        | ok c =>
          obtain ⟨b, i, a⟩ := c
          cases i with
          | none => rfl
          | some i =>
            simp only [unwrap, insertClone_map hc, Prod.map_fst, Prod.map_snd, ih]
            generalize (insertClone clone v b s : List (K × V) × σ) = r1
            generalize (insertClone clone v a r1.2 : List (K × V) × σ) = r2
            rcases cutLoopClone clone q l r2.2 with _ | ⟨x, y, z⟩
            · rfl
            · simp [Except.map]

theorem cutClone_map (m : NoditMap K V) (q : Q) (s : σ) : (m.mapEntries id ψ).cutClone clone' q (τ s) =
    (m.cutClone clone q s).map (Prod.map (mapEntries id ψ) (Prod.map (List.map (Prod.map id ψ)) τ)) := by
  unfold cutClone
  simp only [mapEntries, BTree.lowerBound_map (overlappingComp_map (keeps_id (K := K)) _), BTree.Cursor.mapC, cutLoopClone_map hc,
    bind, Except.bind, pure, Except.pure]
  cases invalidIntervalPanic q with
  | error _ => rfl
  | ok _ =>
    simp only
    rcases cutLoopClone clone q (BTree.lowerBound (overlappingComp (start q)) m.inner).after s with _ | ⟨x, y, z⟩ <;>
      simp [Except.map, mapEntries]

theorem insertOverwriteClone_map (m : NoditMap K V) (k : K) (v : V) (s : σ) :
    (m.mapEntries id ψ).insertOverwriteClone clone' k (ψ v) (τ s) =
    (m.insertOverwriteClone clone k v s).map (Prod.map (mapEntries id ψ) (Prod.map (List.map (Prod.map id ψ)) τ)) := by
  unfold insertOverwriteClone
  simp only [cutClone_map hc, bind, Except.bind, pure, Except.pure]
  cases invalidIntervalPanic k with
  | error _ => rfl
  | ok _ =>
    simp only
    rcases m.cutClone clone k s with _ | ⟨x, y, z⟩
    · rfl
    · simp only [Except.map, Prod.map_apply]
      rw [show k = id k from rfl, insertUnchecked_map keeps_id]; rfl

variable [BEq V] [BEq V']

theorem stepClone_map (m : NoditMap K V) (s : σ) {op : Op I K V} {op' : Op I K V'}
    (hψ : (∀ k v, op ≠ .insertMergeTouchingIfValuesEqual k v) ∨ ∀ a b : V, (ψ a == ψ b) = (a == b)) (h : op.Corresponds id ψ op') :
    (m.mapEntries id ψ).stepClone clone' (τ s) op' =
      (m.stepClone clone s op).map (Prod.map (mapEntries id ψ) (Prod.map (Out.map id ψ) τ)) := by
  have hs := step_map (keeps_id (K := K)) (m := m) (Or.inl fun _ => trivial) (Or.inr fun i hi => absurd trivial hi) hψ h
  cases h
  case insertOverwrite k v =>
    simp only [stepClone, id, insertOverwriteClone_map hc, bind, Except.bind, pure, Except.pure]
    rcases m.insertOverwriteClone clone k v s with _ | ⟨x, y, z⟩ <;> rfl
  case cut q =>
    simp only [stepClone, cutClone_map hc, bind, Except.bind, pure, Except.pure]
    rcases m.cutClone clone q s with _ | ⟨x, y, z⟩ <;> rfl
  all_goals
    simp only [stepClone, hs, bind, Except.bind, pure, Except.pure]
    generalize m.step _ = r
    rcases r with _ | ⟨x, y⟩ <;> rfl

theorem runClone_map {ops : List (Op I K V)} {ops' : List (Op I K V')}
    (hψ : (∀ k v, Op.insertMergeTouchingIfValuesEqual k v ∉ ops) ∨ ∀ a b : V, (ψ a == ψ b) = (a == b))
    (h : List.Forall₂ (Op.Corresponds id ψ) ops ops') (m : NoditMap K V) (s : σ) :
    (m.mapEntries id ψ).runClone clone' (τ s) ops' =
      Prod.map (mapEntries id ψ) (Prod.map (List.map (Except.map (Out.map id ψ))) τ) (m.runClone clone s ops) := by
  induction h generalizing m s with
  | nil => rfl
  | @cons op op' ops ops' h1 h2 ih =>
    have ih := fun m s => ih (hψ.imp_left fun h k v hm => h k v (List.mem_cons_of_mem _ hm)) m s
    have hψ1 : (∀ k v, op ≠ .insertMergeTouchingIfValuesEqual k v) ∨ ∀ a b : V, (ψ a == ψ b) = (a == b) :=
      hψ.imp_left fun h k v he => h k v (he ▸ List.mem_cons_self)
    simp only [runClone, stepClone_map hc m s hψ1 h1]
    rcases m.stepClone clone s op with _ | ⟨m1, o, s1⟩
    · simp only [Except.map, ih]; rfl
    · simp only [Except.map, Prod.map, ih]; rfl
end

/-- `clone()` returns the value itself, and the outside state is not looked at -/
def plainClone : CloneFn Unit V := fun v s => (v, s)

theorem insertClone_plain (v : V) (part : Option (Interval I)) (s : Unit) :
    (insertClone plainClone v part s : List (K × V) × Unit) = (pieceOf v part, ()) := by
  cases part <;> rfl

theorem cutLoopClone_plain (q : Q) (l : List (K × V)) (s : Unit) :
    cutLoopClone plainClone q l s = (cutLoop q l).map fun r => (r.1, r.2, ()) := by
  induction l generalizing s with
  | nil => rfl
  | cons e l ih =>
    obtain ⟨k, v⟩ := e
    simp only [cutLoop, cutLoopClone, bind, Except.bind, pure, Except.pure]
    cases InclusiveInterval.overlaps k q with
    | error _ => rfl
    | ok b =>
      cases b with
      | false => rfl
      | true =>
        simp only [Bool.not_true, Bool.false_eq_true, if_false]
        cases cutInterval k q with
        | error _ => rfl
        | ok c =>
          obtain ⟨b, i, a⟩ := c
          cases i with
          | none => rfl
          | some i =>
            simp only [unwrap, insertClone_plain, ih]
            rcases cutLoop q l with _ | ⟨x, y⟩
            · rfl
            · cases a <;> cases b <;> simp [Except.map, pieceOf]

theorem cutClone_plain (m : NoditMap K V) (q : Q) (s : Unit) :
    m.cutClone plainClone q s = (m.cut q).map fun r => (r.1, r.2, ()) := by
  unfold cutClone cut
  simp only [cutLoopClone_plain, bind, Except.bind, pure, Except.pure]
  cases invalidIntervalPanic q with
  | error _ => rfl
  | ok _ =>
    simp only
    rcases cutLoop q (BTree.lowerBound (overlappingComp (start q)) m.inner).after with _ | ⟨x, y⟩ <;> rfl

variable [BEq V]
theorem stepClone_plain (m : NoditMap K V) (op : Op I K V) (s : Unit) :
    m.stepClone plainClone s op = (m.step op).map fun r => (r.1, r.2, ()) := by
  cases op
  case insertOverwrite k v =>
    simp only [stepClone, step, insertOverwriteClone, insertOverwrite, cutClone_plain, bind, Except.bind, pure, Except.pure]
    cases invalidIntervalPanic k with
    | error _ => rfl
    | ok _ => simp only; rcases m.cut k with _ | ⟨x, y⟩ <;> rfl
  case cut q =>
    simp only [stepClone, step, cutClone_plain, bind, Except.bind, pure, Except.pure]
    rcases m.cut q with _ | ⟨x, y⟩ <;> rfl
  all_goals
    simp only [stepClone, bind, Except.bind, pure, Except.pure]
    generalize m.step _ = r
    rcases r with _ | ⟨x, y⟩ <;> rfl

theorem runClone_plain (ops : List (Op I K V)) (m : NoditMap K V) (s : Unit) :
    m.runClone plainClone s ops = ((m.run ops).1, (m.run ops).2, ()) := by
  induction ops generalizing m s with
  | nil => rfl
  | cons op ops ih =>
    simp only [runClone, run, stepClone_plain]
    rcases m.step op with _ | ⟨x, y⟩ <;> simp only [Except.map, ih]
end NoditMap

/-! ## Pairs of related values -/
section
variable {R : V → V → Prop}

theorem forall₂_pairs {α : Type} (l : List (α × {p : V × V // R p.1 p.2})) :
    List.Forall₂ (EntryRel R) (l.map (Prod.map id fun w => w.1.1)) (l.map (Prod.map id fun w => w.1.2)) := by
  induction l with
  | nil => exact .nil
  | cons e l ih => exact .cons ⟨rfl, e.2.2⟩ ih

theorem Out.rel_pairs (o : Out K {p : V × V // R p.1 p.2}) :
    Out.Rel R (o.map id fun w => w.1.1) (o.map id fun w => w.1.2) := by
  cases o with
  | unit => exact .unit
  | bool b => exact .bool b
  | nat n => exact .nat n
  | entries l => exact .entries (forall₂_pairs l)
  | keys l => exact .keys _
  | optValue v => cases v with
    | none => exact .noValue
    | some v => exact .value v.2
  | optEntry e => cases e with
    | none => exact .noEntry
    | some e => exact .entry ⟨rfl, e.2.2⟩
  | lookup r => cases r with
    | ok e => exact .found ⟨rfl, e.2.2⟩
    | error k => exact .gap _
  | strict r => cases r with
    | ok _ => exact .inserted
    | error v => exact .refused v.2
  | merge r => cases r with
    | ok k => exact .merged _
    | error v => exact .mergeRefused v.2
  | key k => exact .key _

theorem ZOut.rel_pairs (o : ZOut K {p : V × V // R p.1 p.2}) :
    ZOut.Rel R (o.map id fun w => w.1.1) (o.map id fun w => w.1.2) := by
  cases o with
  | strict r => cases r with
    | ok _ => exact .inserted
    | error v => exact .refused v.2
  | optValue v => cases v with
    | none => exact .noValue
    | some v => exact .value v.2
  | entries l => exact .entries (forall₂_pairs l)

theorem resRel_pairs {α β : Type} {S : β → β → Prop} {f g : α → β} (h : ∀ a, S (f a) (g a)) (l : List (Res α)) :
    List.Forall₂ (ResRel S) (l.map (Except.map f)) (l.map (Except.map g)) := by
  induction l with
  | nil => exact .nil
  | cons r l ih => exact .cons (by cases r with | error p => exact .error p | ok a => exact .ok (h a)) ih

/-- a call that respects `R`, as a call on pairs of related values -/
theorem Op.Respects.pairs {op : Op I K V} (h : op.Respects R) : ∃ w : Op I K {p : V × V // R p.1 p.2},
    w.Corresponds id (fun w => w.1.1) op ∧ w.Corresponds id (fun w => w.1.2) op := by
  cases op with
  | insertStrict k v => exact ⟨.insertStrict k ⟨(v, v), h⟩, .insertStrict _ _, .insertStrict _ _⟩
  | insertMergeTouching k v => exact ⟨.insertMergeTouching k ⟨(v, v), h⟩, .insertMergeTouching _ _, .insertMergeTouching _ _⟩
  | insertMergeTouchingIfValuesEqual k v =>
    exact ⟨.insertMergeTouchingIfValuesEqual k ⟨(v, v), h⟩, .insertMergeTouchingIfValuesEqual _ _,
      .insertMergeTouchingIfValuesEqual _ _⟩
  | insertMergeOverlapping k v =>
    exact ⟨.insertMergeOverlapping k ⟨(v, v), h⟩, .insertMergeOverlapping _ _, .insertMergeOverlapping _ _⟩
  | insertMergeTouchingOrOverlapping k v =>
    exact ⟨.insertMergeTouchingOrOverlapping k ⟨(v, v), h⟩, .insertMergeTouchingOrOverlapping _ _,
      .insertMergeTouchingOrOverlapping _ _⟩
  | insertOverwrite k v => exact ⟨.insertOverwrite k ⟨(v, v), h⟩, .insertOverwrite _ _, .insertOverwrite _ _⟩
  | cut q => exact ⟨.cut q, .cut _, .cut _⟩
  | removeOverlapping q => exact ⟨.removeOverlapping q, .removeOverlapping _, .removeOverlapping _⟩
  | overlapping q => exact ⟨.overlapping q, .overlapping _, .overlapping _⟩
  | overlaps q => exact ⟨.overlaps q, .overlaps _, .overlaps _⟩
  | gapsUntrimmed q => exact ⟨.gapsUntrimmed q, .gapsUntrimmed _, .gapsUntrimmed _⟩
  | gapsTrimmed q => exact ⟨.gapsTrimmed q, .gapsTrimmed _, .gapsTrimmed _⟩
  | containsInterval q => exact ⟨.containsInterval q, .containsInterval _, .containsInterval _⟩
  | overlappingMut q f =>
    exact ⟨.overlappingMut q (fun k w => ⟨(f k w.1.1, f k w.1.2), h k _ _ w.2⟩), .overlappingMut q (fun _ _ => rfl),
      .overlappingMut q (fun _ _ => rfl)⟩
  | getAtPoint p => exact ⟨.getAtPoint p, .getAtPoint _, .getAtPoint _⟩
  | getKeyValueAtPoint p => exact ⟨.getKeyValueAtPoint p, .getKeyValueAtPoint _, .getKeyValueAtPoint _⟩
  | containsPoint p => exact ⟨.containsPoint p, .containsPoint _, .containsPoint _⟩
  | getAtPointMut p f =>
    exact ⟨.getAtPointMut p (fun w => ⟨(f w.1.1, f w.1.2), h _ _ w.2⟩), .getAtPointMut p (fun _ => rfl),
      .getAtPointMut p (fun _ => rfl)⟩
  | iterMut f =>
    exact ⟨.iterMut (fun k w => ⟨(f k w.1.1, f k w.1.2), h k _ _ w.2⟩), .iterMut (fun _ _ => rfl), .iterMut (fun _ _ => rfl)⟩
  | iter => exact ⟨.iter, .iter, .iter⟩
  | len => exact ⟨.len, .len, .len⟩
  | isEmpty => exact ⟨.isEmpty, .isEmpty, .isEmpty⟩
  | firstKeyValue => exact ⟨.firstKeyValue, .firstKeyValue, .firstKeyValue⟩
  | lastKeyValue => exact ⟨.lastKeyValue, .lastKeyValue, .lastKeyValue⟩

theorem Op.Respects.pairs_list {ops : List (Op I K V)} (h : ∀ op ∈ ops, op.Respects R) :
    ∃ ws : List (Op I K {p : V × V // R p.1 p.2}),
      List.Forall₂ (Op.Corresponds id fun w => w.1.1) ws ops ∧ List.Forall₂ (Op.Corresponds id fun w => w.1.2) ws ops := by
  induction ops with
  | nil => exact ⟨[], .nil, .nil⟩
  | cons op ops ih =>
    obtain ⟨w, h1, h2⟩ := Op.Respects.pairs (h op List.mem_cons_self)
    obtain ⟨ws, h3, h4⟩ := ih fun o ho => h o (List.mem_cons_of_mem _ ho)
    exact ⟨w :: ws, .cons h1 h3, .cons h2 h4⟩

theorem Op.Corresponds.noEq {ψ : V → V'} {ops : List (Op I K V)} {ops' : List (Op I K V')}
    (h : List.Forall₂ (Op.Corresponds id ψ) ops ops') (hn : ∀ k v, Op.insertMergeTouchingIfValuesEqual k v ∉ ops') (k : K) (v : V) :
    Op.insertMergeTouchingIfValuesEqual k v ∉ ops := by
  induction h with
  | nil => simp
  | @cons op op' ops ops' h1 h2 ih =>
    intro hm
    rcases List.mem_cons.1 hm with rfl | hm
    · cases h1; exact hn k (ψ v) List.mem_cons_self
    · exact ih (fun k v h => hn k v (List.mem_cons_of_mem _ h)) hm
end

/-- **C98**, `NoditMap`: over any sequence of calls, with any `clone()`. Let `R` be a relation that `clone()` cannot leave (if `a`
is related to `b`, it is related to clones of `b`), such as "has the same contents". If the values given are related to themselves
and the closures given keep values related, then all results, and the final map, are - up to `R` on the values - what they would be
if every clone were the value itself: same intervals, same panics, same answers. The one method that compares values is excluded,
unless related values compare alike. -/
theorem C98_nodit_history [BEq V] (R : V → V → Prop) (clone : CloneFn σ V) (hR : ∀ a b s, R a b → R a (clone b s).1)
    (ops : List (Op I K V)) (hops : ∀ op ∈ ops, op.Respects R)
    (heq : (∀ k v, Op.insertMergeTouchingIfValuesEqual k v ∉ ops) ∨ ∀ a b a' b', R a b → R a' b' → (a == a') = (b == b')) (s : σ) :
    List.Forall₂ (EntryRel R) (NoditMap.new.run ops).1.iter (NoditMap.new.runClone clone s ops).1.iter ∧
    List.Forall₂ (ResRel (Out.Rel R)) (NoditMap.new.run ops).2 (NoditMap.new.runClone clone s ops).2.1 := by
  let W := {p : V × V // R p.1 p.2}
  let _ : BEq W := ⟨fun a b => a.1.1 == b.1.1⟩
  obtain ⟨ws, h1, h2⟩ := Op.Respects.pairs_list hops
  let cloneW : CloneFn σ W := fun w s => (⟨(w.1.1, (clone w.1.2 s).1), hR _ _ s w.2⟩, (clone w.1.2 s).2)
  have e1 := NoditMap.runClone_map (K := K) (ψ := fun w : W => w.1.1) (τ := fun _ => ()) (clone := cloneW)
    (clone' := NoditMap.plainClone) (fun _ _ => rfl) (Or.inr fun _ _ => rfl) h1 NoditMap.new s
  have e2 := NoditMap.runClone_map (K := K) (ψ := fun w : W => w.1.2) (τ := id) (clone := cloneW)
    (clone' := clone) (fun _ _ => rfl)
    (heq.imp (fun h => Op.Corresponds.noEq h2 h) (fun h a b => (h _ _ _ _ a.2 b.2).symm)) h2 NoditMap.new s
  rw [NoditMap.runClone_plain] at e1
  have n1 : (NoditMap.new : NoditMap K W).mapEntries id (fun w => w.1.1) = NoditMap.new := rfl
  have n2 : (NoditMap.new : NoditMap K W).mapEntries id (fun w => w.1.2) = NoditMap.new := rfl
  rw [n1] at e1
  rw [n2] at e2
  have a1 := congrArg (fun r => r.1) e1
  have a2 := congrArg (fun r => r.2.1) e1
  simp only at a1 a2
  simp only [id] at e2
  rw [e2, a1, a2]
  exact ⟨forall₂_pairs _, resRel_pairs Out.rel_pairs _⟩

/-- **C98**, `NoditMap`: if `clone()` returns a value equal to the original, whatever else it does, every history gives what it gives
in the model of `Verif/NoditMap.lean`, where the clone is the value. -/
theorem C98_nodit_faithful_clone [BEq V] (clone : CloneFn σ V) (hc : ∀ v s, (clone v s).1 = v) (ops : List (Op I K V)) (s : σ) :
    (NoditMap.new.runClone clone s ops).1 = (NoditMap.new.run ops).1 ∧
    (NoditMap.new.runClone clone s ops).2.1 = (NoditMap.new.run ops).2 := by
  have hid : ∀ op : Op I K V, op.Corresponds id id op := fun op => by
    cases op <;> constructor <;> intros <;> rfl
  have e := NoditMap.runClone_map (K := K) (ψ := (id : V → V)) (τ := fun _ => ()) (clone := clone)
    (clone' := NoditMap.plainClone) (fun v s => by simp [NoditMap.plainClone, hc]) (Or.inr fun _ _ => rfl)
    (ops := ops) (ops' := ops) (List.forall₂_same.2 fun op _ => hid op) NoditMap.new s
  have n (m : NoditMap K V) : m.mapEntries id id = m := by simp [NoditMap.mapEntries]
  have no : (Out.map id id : Out K V → Out K V) = id := by
    funext o
    cases o <;> simp [Out.map] <;> rename_i r <;> cases r <;> simp
  have ne (f : Res (Out K V)) : Except.map id f = f := by cases f <;> rfl
  rw [n, NoditMap.runClone_plain, no] at e
  have a1 := congrArg (fun r => r.1) e
  have a2 := congrArg (fun r => r.2.1) e
  simp only [Prod.map, n] at a1 a2
  refine ⟨a1.symm, ?_⟩
  rw [a2]
  simp [ne]

/-! ## `ZosditMap` -/
namespace ZosditMap
section
variable {ψ : V → V'} {τ : σ → σ'} {clone : CloneFn σ V} {clone' : CloneFn σ' V'} (hc : Commutes ψ τ clone clone')
include hc

theorem cloneStore_map (vs : List V) (s : σ) :
    cloneStore clone' (vs.map ψ) (τ s) = Prod.map (List.map ψ) τ (cloneStore clone vs s) := by
  induction vs generalizing s with
  | nil => rfl
  | cons v vs ih => simp [cloneStore, hc v s, ih]

theorem insertClone_map (vs : List V) (part : Option (Interval I)) (len : Nat) (s : σ) :
    (insertClone clone' (vs.map ψ) part len (τ s) : List (K × List V') × Nat × σ') =
      Prod.map (List.map (Prod.map id (List.map ψ))) (Prod.map id τ) (insertClone clone vs part len s) := by
  cases part with
  | none => rfl
  | some part => simp [insertClone, cloneStore_map hc]

theorem cutLoopClone_map (q : Q) (len : Nat) (l : List (K × List V)) (s : σ) :
    cutLoopClone clone' q len (l.map (Prod.map id (List.map ψ))) (τ s) =
      (cutLoopClone clone q len l s).map (Prod.map (List.map (Prod.map id (List.map ψ))) (Prod.map (List.map (Prod.map id ψ))
        (Prod.map id τ))) := by
  induction l generalizing len s with
  | nil => rfl
  | cons e l ih =>
    obtain ⟨k, vs⟩ := e
    simp only [List.map_cons, cutLoopClone, Prod.map_apply, id]
    cases InclusiveInterval.overlaps k q with
    | error _ => rfl
    | ok b =>
      cases b with
      | false => rfl
      | true =>
        simp only [bind, Except.bind, Bool.not_true, Bool.false_eq_true, if_false]
        cases cutInterval k q with
        | error _ => rfl
        | ok c =>
          obtain ⟨b, i, a⟩ := c
          have hm : List.mapM (fun v => (do pure ((ofInterval (← unwrap i) : K), v) : Res (K × V'))) (vs.map ψ) =
            (List.mapM (fun v => (do pure ((ofInterval (← unwrap i) : K), v) : Res (K × V))) vs).map (List.map (Prod.map id ψ)) := by
            rw [List.mapM_map]
            refine mapM_map (fun v => ?_) vs
            cases i with
            | none => rfl
            | some i => simp [unwrap, Except.map, pure, Except.pure, bind, Except.bind]
          simp only [bind, Except.bind] at hm
          simp only [hm, List.length_map, insertClone_map hc, Prod.map_fst, Prod.map_snd, id, ih]
          generalize (List.mapM _ vs : Res (List (K × V))) = r
          generalize (insertClone clone vs b len s : List (K × List V) × Nat × σ) = r1
          generalize (insertClone clone vs a r1.2.1 r1.2.2 : List (K × List V) × Nat × σ) = r2
          split_ifs
          · rfl
          · cases r with
            | error _ => rfl
            | ok r =>
              simp only [Except.map]
              rcases cutLoopClone clone q (r2.2.1 - vs.length) l r2.2.2 with _ | ⟨x, y, z, w⟩ <;> simp [pure, Except.pure]

theorem cutClone_map (m : ZosditMap K V) (q : Q) (s : σ) : (m.mapEntries id ψ).cutClone clone' q (τ s) =
    (m.cutClone clone q s).map (Prod.map (mapEntries id ψ) (Prod.map (List.map (Prod.map id ψ)) τ)) := by
  unfold cutClone
  simp only [mapEntries, BTree.upperBound_map (exclusiveComp_map (keeps_id (K := K)) _ _), key_map, Option.isNone_map, moveNext_map,
    bind, Except.bind, pure, Except.pure]
  rw [← apply_ite (BTree.Cursor.mapC id (List.map ψ))]
  cases invalidIntervalPanic q with
  | error _ => rfl
  | ok _ =>
    simp only
    generalize (if (BTree.upperBound (exclusiveComp (start q) .lt) m.inner).key.isNone = true then _ else _ : BTree.Cursor K (List V)) = c
    simp only [BTree.Cursor.mapC, cutLoopClone_map hc]
    rcases cutLoopClone clone q m.len c.after s with _ | ⟨x, y, z, w⟩ <;> simp [Except.map, mapEntries]

theorem stepClone_map (m : ZosditMap K V) (s : σ) (op : ZOp I K V) :
    (m.mapEntries id ψ).stepClone clone' (τ s) (op.map id ψ) =
      (m.stepClone clone s op).map (Prod.map (mapEntries id ψ) (Prod.map (ZOut.map id ψ) τ)) := by
  have hs := step_map (keeps_id (K := K)) (fun _ _ => trivial) (ψ := ψ) m op
  cases op with
  | cut q =>
    simp only [stepClone, ZOp.map, cutClone_map hc, bind, Except.bind, pure, Except.pure]
    rcases m.cutClone clone q s with _ | ⟨x, y, z⟩ <;> rfl
  | insertStrictBack k v pick =>
    simp only [ZOp.map] at hs
    simp only [stepClone, ZOp.map, hs, bind, Except.bind, pure, Except.pure]
    generalize m.step _ = r
    rcases r with _ | ⟨x, y⟩ <;> rfl
  | removeLastValueAtPoint p =>
    simp only [ZOp.map] at hs
    simp only [stepClone, ZOp.map, hs, bind, Except.bind, pure, Except.pure]
    generalize m.step _ = r
    rcases r with _ | ⟨x, y⟩ <;> rfl

theorem runClone_map (ops : List (ZOp I K V)) (m : ZosditMap K V) (s : σ) :
    (m.mapEntries id ψ).runClone clone' (τ s) (ops.map (ZOp.map id ψ)) =
      Prod.map (mapEntries id ψ) (Prod.map (List.map (Except.map (ZOut.map id ψ))) τ) (m.runClone clone s ops) := by
  induction ops generalizing m s with
  | nil => rfl
  | cons op ops ih =>
    simp only [List.map_cons, runClone, stepClone_map hc]
    rcases m.stepClone clone s op with _ | ⟨m1, o, s1⟩
    · simp only [Except.map, ih]; rfl
    · simp only [Except.map, Prod.map, ih]; rfl
end

theorem cloneStore_plain (vs : List V) (s : Unit) : cloneStore NoditMap.plainClone vs s = (vs, ()) := by
  induction vs generalizing s with
  | nil => rfl
  | cons v vs ih => simp [cloneStore, ih, NoditMap.plainClone]

theorem cutLoopClone_plain (q : Q) (len : Nat) (l : List (K × List V)) (s : Unit) :
    cutLoopClone NoditMap.plainClone q len l s = (cutLoop q len l).map fun r => (r.1, r.2.1, r.2.2, ()) := by
  induction l generalizing len s with
  | nil => rfl
  | cons e l ih =>
    obtain ⟨k, vs⟩ := e
    simp only [cutLoop, cutLoopClone]
    cases InclusiveInterval.overlaps k q with
    | error _ => rfl
    | ok b =>
      cases b with
      | false => rfl
      | true =>
        simp only [bind, Except.bind, Bool.not_true, Bool.false_eq_true, if_false]
        cases cutInterval k q with
        | error _ => rfl
        | ok c =>
          obtain ⟨b, i, a⟩ := c
          cases b <;> cases a <;> simp only [insertClone, cloneStore_plain, ih] <;> (split_ifs; · rfl) <;>
            generalize (List.mapM _ vs : Res (List (K × V))) = r <;> (cases r; · rfl) <;>
            simp only [Except.map] <;> (rcases cutLoop q _ l with _ | ⟨x, y, z⟩ <;> simp [pure, Except.pure])

theorem cutClone_plain (m : ZosditMap K V) (q : Q) (s : Unit) :
    m.cutClone NoditMap.plainClone q s = (m.cut q).map fun r => (r.1, r.2, ()) := by
  unfold cutClone cut
  simp only [cutLoopClone_plain, bind, Except.bind, pure, Except.pure]
  cases invalidIntervalPanic q with
  | error _ => rfl
  | ok _ =>
    simp only
    rcases cutLoop q m.len _ with _ | ⟨x, y, z⟩ <;> rfl

theorem stepClone_plain (m : ZosditMap K V) (op : ZOp I K V) (s : Unit) :
    m.stepClone NoditMap.plainClone s op = (m.step op).map fun r => (r.1, r.2, ()) := by
  cases op with
  | cut q =>
    simp only [stepClone, step, cutClone_plain, bind, Except.bind, pure, Except.pure]
    rcases m.cut q with _ | ⟨x, y⟩ <;> rfl
  | insertStrictBack k v pick =>
    simp only [stepClone, bind, Except.bind, pure, Except.pure]
    generalize m.step _ = r
    rcases r with _ | ⟨x, y⟩ <;> rfl
  | removeLastValueAtPoint p =>
    simp only [stepClone, bind, Except.bind, pure, Except.pure]
    generalize m.step _ = r
    rcases r with _ | ⟨x, y⟩ <;> rfl

theorem runClone_plain (ops : List (ZOp I K V)) (m : ZosditMap K V) (s : Unit) :
    m.runClone NoditMap.plainClone s ops = ((m.run ops).1, (m.run ops).2, ()) := by
  induction ops generalizing m s with
  | nil => rfl
  | cons op ops ih =>
    simp only [runClone, run, stepClone_plain]
    rcases m.step op with _ | ⟨x, y⟩ <;> simp only [Except.map, ih]
end ZosditMap

theorem ZOp.Respects.pairs_list {R : V → V → Prop} {ops : List (ZOp I K V)} (h : ∀ op ∈ ops, op.Respects R) :
    ∃ ws : List (ZOp I K {p : V × V // R p.1 p.2}),
      ws.map (ZOp.map id fun w => w.1.1) = ops ∧ ws.map (ZOp.map id fun w => w.1.2) = ops := by
  induction ops with
  | nil => exact ⟨[], rfl, rfl⟩
  | cons op ops ih =>
    obtain ⟨ws, h3, h4⟩ := ih fun o ho => h o (List.mem_cons_of_mem _ ho)
    have h1 := h op List.mem_cons_self
    cases op with
    | insertStrictBack k v pick =>
      exact ⟨.insertStrictBack k ⟨(v, v), h1⟩ pick :: ws, by simp [h3, ZOp.map], by simp [h4, ZOp.map]⟩
    | removeLastValueAtPoint p => exact ⟨.removeLastValueAtPoint p :: ws, by simp [h3, ZOp.map], by simp [h4, ZOp.map]⟩
    | cut q => exact ⟨.cut q :: ws, by simp [h3, ZOp.map], by simp [h4, ZOp.map]⟩

/-- **C98**, `ZosditMap`: as `C98_nodit_history`. -/
theorem C98_zosdit_history (R : V → V → Prop) (clone : CloneFn σ V) (hR : ∀ a b s, R a b → R a (clone b s).1)
    (ops : List (ZOp I K V)) (hops : ∀ op ∈ ops, op.Respects R) (s : σ) :
    List.Forall₂ (EntryRel R) (ZosditMap.new.run ops).1.iter (ZosditMap.new.runClone clone s ops).1.iter ∧
    (ZosditMap.new.runClone clone s ops).1.length = (ZosditMap.new.run ops).1.length ∧
    List.Forall₂ (ResRel (ZOut.Rel R)) (ZosditMap.new.run ops).2 (ZosditMap.new.runClone clone s ops).2.1 := by
  let W := {p : V × V // R p.1 p.2}
  obtain ⟨ws, h1, h2⟩ := ZOp.Respects.pairs_list hops
  let cloneW : CloneFn σ W := fun w s => (⟨(w.1.1, (clone w.1.2 s).1), hR _ _ s w.2⟩, (clone w.1.2 s).2)
  have e1 := ZosditMap.runClone_map (K := K) (ψ := fun w : W => w.1.1) (τ := fun _ => ()) (clone := cloneW)
    (clone' := NoditMap.plainClone) (fun _ _ => rfl) ws ZosditMap.new s
  have e2 := ZosditMap.runClone_map (K := K) (ψ := fun w : W => w.1.2) (τ := id) (clone := cloneW)
    (clone' := clone) (fun _ _ => rfl) ws ZosditMap.new s
  rw [ZosditMap.runClone_plain, h1] at e1
  rw [h2] at e2
  have n1 : (ZosditMap.new : ZosditMap K W).mapEntries id (fun w => w.1.1) = ZosditMap.new := rfl
  have n2 : (ZosditMap.new : ZosditMap K W).mapEntries id (fun w => w.1.2) = ZosditMap.new := rfl
  rw [n1] at e1
  rw [n2] at e2
  have a1 := congrArg (fun r => r.1) e1
  have a2 := congrArg (fun r => r.2.1) e1
  simp only at a1 a2
  simp only [id] at e2
  rw [e2, a1, a2]
  refine ⟨?_, rfl, resRel_pairs ZOut.rel_pairs _⟩
  simp only [Prod.map_fst, ZosditMap.iter, ZosditMap.mapEntries, ZosditMap.flatten_map]
  exact forall₂_pairs _

/-- **C98**, `ZosditMap`: as `C98_nodit_faithful_clone`. -/
theorem C98_zosdit_faithful_clone (clone : CloneFn σ V) (hc : ∀ v s, (clone v s).1 = v) (ops : List (ZOp I K V)) (s : σ) :
    (ZosditMap.new.runClone clone s ops).1 = (ZosditMap.new.run ops).1 ∧
    (ZosditMap.new.runClone clone s ops).2.1 = (ZosditMap.new.run ops).2 := by
  have e := ZosditMap.runClone_map (K := K) (ψ := (id : V → V)) (τ := fun _ => ()) (clone := clone)
    (clone' := NoditMap.plainClone) (fun v s => by simp [NoditMap.plainClone, hc]) ops ZosditMap.new s
  have n (m : ZosditMap K V) : m.mapEntries id id = m := by simp [ZosditMap.mapEntries]
  have nz : (ZOp.map id id : ZOp I K V → ZOp I K V) = id := by funext o; cases o <;> rfl
  have no : (ZOut.map id id : ZOut K V → ZOut K V) = id := by
    funext o
    cases o <;> simp [ZOut.map] <;> rename_i r <;> cases r <;> simp
  have ne (f : Res (ZOut K V)) : Except.map id f = f := by cases f <;> rfl
  rw [n, ZosditMap.runClone_plain, no, nz, List.map_id] at e
  have a1 := congrArg (fun r => r.1) e
  have a2 := congrArg (fun r => r.2.1) e
  simp only [Prod.map, n] at a1 a2
  refine ⟨a1.symm, ?_⟩
  rw [a2]
  simp [ne]

/-! ## Non-vacuity -/

/-- values with contents and a serial number, as `Rc`-like handles; `clone()` takes the next number -/
def serialClone : CloneFn Nat (Nat × Nat) := fun v s => ((v.1, s), s + 1)

/-- a `NoditMap` of such values: the original (number 0) is returned by `cut`, both parts left are clones, with the numbers 1 and 2
in iteration order -/
example : ∃ m m' s', m = (NoditMap.new.runClone serialClone 1
      [.insertStrict (Demo.iv 0 9) (7, 0), .cut (Demo.iv 3 5)] : NoditMap (Interval Demo.U8) (Nat × Nat) × _) ∧
    m = (m', [.ok (.strict (.ok ())), .ok (.entries [(Demo.iv 3 5, (7, 0))])], s') ∧
    m'.iter = [(Demo.iv 0 2, (7, 1)), (Demo.iv 6 9, (7, 2))] ∧ s' = 3 :=
  ⟨_, _, _, rfl, rfl, rfl, rfl⟩

/-- the relation "same contents" meets the hypotheses of `C98_nodit_history` for this history -/
example : ∃ ops : List (Op Demo.U8 (Interval Demo.U8) (Nat × Nat)),
    (∀ a b s, (fun a b : Nat × Nat => a.1 = b.1) a b → a.1 = (serialClone b s).1.1) ∧
    (∀ op ∈ ops, op.Respects (fun a b => a.1 = b.1)) ∧ (∀ k v, Op.insertMergeTouchingIfValuesEqual k v ∉ ops) ∧
    (NoditMap.new.run ops).1.iter = [(Demo.iv 0 2, (17, 0)), (Demo.iv 3 5, (18, 9)), (Demo.iv 6 9, (17, 0))] ∧
    (NoditMap.new.runClone serialClone 1 ops).1.iter = [(Demo.iv 0 2, (17, 1)), (Demo.iv 3 5, (18, 9)), (Demo.iv 6 9, (17, 2))] := by
  refine ⟨[.insertStrict (Demo.iv 0 9) (7, 0), .insertOverwrite (Demo.iv 3 5) (8, 9), .iterMut (fun _ v => (v.1 + 10, v.2))],
    fun a b s h => h, ?_, by simp, rfl, rfl⟩
  intro op hop
  simp only [List.mem_cons, List.not_mem_nil, or_false] at hop
  rcases hop with rfl | rfl | rfl <;> simp [Op.Respects]

/-- a `ZosditMap` with two values at one interval: `cut` returns the originals and leaves clones -/
example : ∃ r, r = (ZosditMap.new.runClone serialClone 5
      [.insertStrictBack (Demo.iv 0 9) (7, 0) 0, .insertStrictBack (Demo.iv 9 9) (8, 1) 0, .cut (Demo.iv 3 5)] :
        ZosditMap (Interval Demo.U8) (Nat × Nat) × _) ∧
    r.1.iter = [(Demo.iv 0 2, (7, 5)), (Demo.iv 6 9, (7, 6)), (Demo.iv 9 9, (8, 1))] ∧
    r.2.1.getLast? = some (.ok (.entries [(Demo.iv 3 5, (7, 0))])) ∧ r.2.2 = 7 :=
  ⟨_, rfl, rfl, rfl, rfl⟩

end Nodit
