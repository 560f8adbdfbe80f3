import Verif.Props.SetHistory
import Verif.Props.TreeMapProps
import Verif.Props.Parametric
import Verif.Props.EqualityProps
import Verif.Props.AnyPoints
/-!
# C87, C89, C91, C95 for whole histories of a `NoditSet`, with results

The theorems about histories of `NoditMap` calls carry over to `NoditSet`, whose methods are calls of the inner map.
-/
set_option linter.unusedSectionVars false
namespace Nodit
open Spec PointType NoditSet BTree

/-! ## C91: trees -/
section
variable {I K : Type} [PointType I] [IntervalType I K]

/-- One call of a `NoditSet` whose inner map keeps its entries in a tree, `/repo/src/nodit/set.rs:33-176`: the method of the inner map
(`Verif/TreeMap.lean`), its result projected with `first` (`set.rs:181-183`). -/
def TreeNodit.stepSet (ρ : Shape (K × Unit)) (t : TreeNodit K Unit) (op : SetCall I K) : Res (TreeNodit K Unit × SetOut K) := do
  let (t, o) ← t.step ρ op.toMap
  pure (t, SetOut.ofMap o)

/-- A sequence of calls; `ρ i` for the `i`-th call. A call that panics leaves the tree as it was. -/
def TreeNodit.runSet (ρ : Nat → Shape (K × Unit)) (t : TreeNodit K Unit) : List (SetCall I K) → TreeNodit K Unit × List (Res (SetOut K))
  | [] => (t, [])
  | op :: ops =>
    match t.stepSet (ρ 0) op with
    | .error p => let (t', os) := runSet (fun i => ρ (i + 1)) t ops; (t', .error p :: os)
    | .ok (t1, o) => let (t', os) := runSet (fun i => ρ (i + 1)) t1 ops; (t', .ok o :: os)

theorem TreeNodit.runSet_eq (ops : List (SetCall I K)) (t : TreeNodit K Unit) (ρ : Nat → Shape (K × Unit)) :
    t.runSet ρ ops = ((t.run ρ (ops.map SetCall.toMap)).1, (t.run ρ (ops.map SetCall.toMap)).2.map (fun o => o.map SetOut.ofMap)) := by
  induction ops generalizing t ρ with
  | nil => rfl
  | cons op ops ih =>
    simp only [runSet, stepSet, List.map_cons, TreeNodit.run, bind, Except.bind, pure, Except.pure]
    cases t.step (ρ 0) op.toMap with
    | error p => simp [Except.map, ih]
    | ok r => simp [Except.map, ih]

variable [LawfulPoint I] [LawfulInterval I K]

/-- **C91** for `NoditSet`: a program gets the same results from every call, and the set has the same intervals in the same order in the
end, whatever shapes the container's tree takes on: with `ρ i n l` the tree in which the container arranges the entries `l` after its
`n`-th change in the `i`-th call. -/
theorem C91_nodit_set (ops : List (SetCall I K)) (ρ : Nat → Nat → List (K × Unit) → Tree (K × Unit)) (hρ : ∀ i n l, (ρ i n l).toList = l) :
    ((TreeNodit.new : TreeNodit K Unit).runSet ρ ops).2 = ((NoditSet.new : NoditSet K).runCalls ops).2 ∧
    ((TreeNodit.new : TreeNodit K Unit).runSet ρ ops).1.tree.toList.map Prod.fst = ((NoditSet.new : NoditSet K).runCalls ops).1.iter := by
  obtain ⟨h1, h2⟩ := C91_nodit_map (V := Unit) (ops.map SetCall.toMap) ρ hρ
  rw [TreeNodit.runSet_eq, runCalls_eq]
  exact ⟨by simp only [h1]; rfl, by simp only [h2]; rfl⟩

/-- **C91**, hence two containers arranging their trees differently cannot be told apart. -/
theorem C91_nodit_set_shapes (ops : List (SetCall I K)) (ρ ρ' : Nat → Nat → List (K × Unit) → Tree (K × Unit))
    (hρ : ∀ i n l, (ρ i n l).toList = l) (hρ' : ∀ i n l, (ρ' i n l).toList = l) :
    ((TreeNodit.new : TreeNodit K Unit).runSet ρ ops).2 = ((TreeNodit.new : TreeNodit K Unit).runSet ρ' ops).2 :=
  (C91_nodit_set ops ρ hρ).1.trans (C91_nodit_set ops ρ' hρ').1.symm
end

/-! ## C87: custom interval types -/
section
variable {I K K' : Type}

/-- the same call with the intervals replaced -/
def Spec.SetCall.map (φ : K → K') : SetCall I K → SetCall I K'
  | .insertStrict k => .insertStrict (φ k)
  | .insertMergeTouching k => .insertMergeTouching (φ k)
  | .insertMergeOverlapping k => .insertMergeOverlapping (φ k)
  | .insertMergeTouchingOrOverlapping k => .insertMergeTouchingOrOverlapping (φ k)
  | .insertOverwrite k => .insertOverwrite (φ k)
  | .cut q => .cut q
  | .removeOverlapping q => .removeOverlapping q
  | .overlapping q => .overlapping q
  | .overlaps q => .overlaps q
  | .gapsUntrimmed q => .gapsUntrimmed q
  | .gapsTrimmed q => .gapsTrimmed q
  | .containsInterval q => .containsInterval q
  | .getAtPoint p => .getAtPoint p
  | .containsPoint p => .containsPoint p
  | .iter => .iter
  | .len => .len
  | .isEmpty => .isEmpty
  | .first => .first
  | .last => .last

/-- the same result with the intervals replaced -/
def Spec.SetOut.map (φ : K → K') : SetOut K → SetOut K'
  | .bool b => .bool b
  | .nat n => .nat n
  | .keys l => .keys (l.map φ)
  | .optKey k => .optKey (k.map φ)
  | .lookup (.ok k) => .lookup (.ok (φ k))
  | .lookup (.error g) => .lookup (.error (φ g))
  | .strict r => .strict r
  | .merge (.ok k) => .merge (.ok (φ k))
  | .merge (.error u) => .merge (.error u)
  | .key k => .key (φ k)

theorem toMap_corresponds (φ : K → K') (ops : List (SetCall I K)) :
    List.Forall₂ (Op.Corresponds φ id) (ops.map SetCall.toMap) ((ops.map (SetCall.map φ)).map SetCall.toMap) := by
  induction ops with
  | nil => exact .nil
  | cons op ops ih => exact .cons (by cases op <;> constructor) ih

theorem ofMap_map (φ : K → K') (o : Out K Unit) : SetOut.ofMap (Out.map φ id o) = (SetOut.ofMap o).map φ := by
  rcases o with _ | b | n | l | l | v | e | r | r | r | k
  case lookup => cases r <;> rfl
  case strict => cases r <;> rfl
  case merge => cases r <;> rfl
  all_goals simp [Out.map, SetOut.ofMap, SetOut.map]
  all_goals rfl

variable [PointType I] [IntervalType I K]

/-- **C87**, histories of a `NoditSet`: with a custom interval type and with plain `Interval`s every call returns the same and the same
intervals are left, once every custom interval is read as `start..=end`. The custom type need only convert *valid* intervals faithfully
and, if the history asks for gaps, turn invalid intervals into invalid ones. -/
theorem C87_nodit_set_history [LawfulPoint I] (hw : FaithfulOnValid I K) (ops : List (SetCall I K))
    (hg : (∀ q : Interval I, .gapsUntrimmed q ∉ ops ∧ .gapsTrimmed q ∉ ops ∧ .containsInterval q ∉ ops) ∨ InvalidStaysInvalid I K) :
    let r := NoditSet.new.runCalls ops
    let r' := NoditSet.new.runCalls (ops.map (SetCall.map toInterval))
    r'.1.iter = r.1.iter.map toInterval ∧ r'.2 = r.2.map (Except.map (SetOut.map toInterval)) := by
  intro r r'
  have h := C87_nodit_map (V := Unit) hw (ops := ops.map SetCall.toMap) (hg.imp_left (fun hg q => by
    have hq := hg q
    refine ⟨fun hm => ?_, fun hm => ?_, fun hm => ?_⟩ <;>
    · obtain ⟨op, ho, hm⟩ := List.mem_map.1 hm
      cases op <;> simp only [SetCall.toMap, reduceCtorEq, Op.gapsUntrimmed.injEq, Op.gapsTrimmed.injEq, Op.containsInterval.injEq] at hm <;>
        subst hm <;> first | exact hq.1 ho | exact hq.2.1 ho | exact hq.2.2 ho)) (toMap_corresponds toInterval ops)
  have e1 : r' = _ := runCalls_eq (ops.map (SetCall.map toInterval)) NoditSet.new
  have e2 : r = _ := runCalls_eq ops NoditSet.new
  rw [e1, e2]
  constructor
  · have := congrArg (List.map Prod.fst) h.1
    refine this.trans ?_
    rw [List.map_map]
    show _ = List.map toInterval (List.map Prod.fst _)
    rw [List.map_map]
    rfl
  · have := congrArg (List.map (Except.map SetOut.ofMap)) h.2
    refine this.trans ?_
    rw [List.map_map, List.map_map]
    refine List.map_congr_left fun o _ => ?_
    cases o with
    | error p => rfl
    | ok o => exact congrArg Except.ok (ofMap_map toInterval o)
end

/-! ## C89: equality -/
section
variable {I K : Type} [BEq K]

/-- the same call with equal arguments -/
inductive Spec.SetCall.Equal : SetCall I K → SetCall I K → Prop
  | insertStrict {k k'} : (k == k') = true → Equal (.insertStrict k) (.insertStrict k')
  | insertMergeTouching {k k'} : (k == k') = true → Equal (.insertMergeTouching k) (.insertMergeTouching k')
  | insertMergeOverlapping {k k'} : (k == k') = true → Equal (.insertMergeOverlapping k) (.insertMergeOverlapping k')
  | insertMergeTouchingOrOverlapping {k k'} : (k == k') = true →
    Equal (.insertMergeTouchingOrOverlapping k) (.insertMergeTouchingOrOverlapping k')
  | insertOverwrite {k k'} : (k == k') = true → Equal (.insertOverwrite k) (.insertOverwrite k')
  | same (op) : Equal op op

/-- equal results -/
inductive Spec.SetOut.Equal : SetOut K → SetOut K → Prop
  | bool (b) : Equal (.bool b) (.bool b)
  | nat (n) : Equal (.nat n) (.nat n)
  | keys {l l'} : List.Forall₂ (fun k k' => (k == k') = true) l l' → Equal (.keys l) (.keys l')
  | optKey {k k'} : Option.Rel (fun k k' => (k == k') = true) k k' → Equal (.optKey k) (.optKey k')
  | found {k k'} : (k == k') = true → Equal (.lookup (.ok k)) (.lookup (.ok k'))
  | notFound {g g'} : (g == g') = true → Equal (.lookup (.error g)) (.lookup (.error g'))
  | strict (r) : Equal (.strict r) (.strict r)
  | merged {k k'} : (k == k') = true → Equal (.merge (.ok k)) (.merge (.ok k'))
  | mergeRefused : Equal (.merge (.error ())) (.merge (.error ()))
  | key {k k'} : (k == k') = true → Equal (.key k) (.key k')

variable [PointType I] [IntervalType I K] [EquivBEq K] [EqKeepsEnds I K]

omit [PointType I] [IntervalType I K] [EqKeepsEnds I K] in
theorem toMap_equal {op op' : SetCall I K} (h : op.Equal op') : op.toMap.Equal op'.toMap := by
  cases h with
  | same op => cases op <;> constructor <;> simp
  | _ h => constructor <;> first | exact h | rfl

omit [PointType I] [IntervalType I K] [EquivBEq K] [EqKeepsEnds I K] in
theorem ofMap_equal {o o' : Out K Unit} (h : o.Equal o') : (SetOut.ofMap o).Equal (SetOut.ofMap o') := by
  cases h with
  | unit => exact .keys .nil
  | bool b => exact .bool b
  | nat n => exact .nat n
  | entries h =>
    refine .keys ?_
    rw [List.forall₂_map_left_iff, List.forall₂_map_right_iff]
    exact List.Forall₂.imp (fun _ _ h => h.1) h
  | keys h => exact .keys h
  | optValue h => exact .keys .nil
  | optEntry h =>
    refine .optKey ?_
    cases h with
    | none => exact .none
    | some h => exact .some h.1
  | found h h' => exact .found h
  | notFound h => exact .notFound h
  | inserted => exact .strict _
  | refused h => exact .strict _
  | merged h => exact .merged h
  | mergeRefused h => exact .mergeRefused
  | key h => exact .key h

/-- **C89**, histories of `NoditSet`s: equal sets cannot be told apart: after the same calls with equal arguments they have given equal
results, panicked in the same calls, and are equal again. -/
theorem C89_nodit_set_history {s s' : NoditSet K} (h : s.equal s' = true) {ops ops' : List (SetCall I K)}
    (ho : List.Forall₂ SetCall.Equal ops ops') :
    (s.runCalls ops).1.equal (s'.runCalls ops').1 = true ∧
    List.Forall₂ (ResEqual SetOut.Equal) (s.runCalls ops).2 (s'.runCalls ops').2 := by
  have := C89_nodit_map_congruence (V := Unit) (m := s.inner) (m' := s'.inner) h (ops := ops.map SetCall.toMap) (ops' := ops'.map SetCall.toMap)
    (by rw [List.forall₂_map_left_iff, List.forall₂_map_right_iff]; exact ho.imp fun _ _ => toMap_equal)
  rw [runCalls_eq, runCalls_eq]
  refine ⟨this.1, ?_⟩
  rw [List.forall₂_map_left_iff, List.forall₂_map_right_iff]
  refine this.2.imp fun r r' hr => ?_
  cases hr with
  | ok h => exact .ok (ofMap_equal h)
  | panic e => exact .panic e
end

/-! ## C95: any points -/
section
variable {I K : Type} [PointType I] [IntervalType I K]

/-- the call never asks for the point next to another one -/
def Spec.SetCall.NoNeighbours : SetCall I K → Prop
  | .insertStrict _ | .insertMergeOverlapping _ | .removeOverlapping _ | .overlapping _ | .overlaps _ | .iter | .len | .isEmpty
  | .first | .last => True
  | _ => False

/-- **C95** for `NoditSet`: for any ordered type of points, whatever `up` and `down` do, histories of the calls that name no
neighbouring point are those of a plain set of intervals. -/
theorem C95_nodit_set [LawfulInterval I K] (ops : List (SetCall I K)) (hops : ∀ op ∈ ops, op.NoNeighbours) :
    Ascending ((NoditSet.new : NoditSet K).runCalls ops).1.iter ∧
    SetSpecRun ∅ ops ((NoditSet.new : NoditSet K).runCalls ops).1.keySet ((NoditSet.new : NoditSet K).runCalls ops).2 := by
  obtain ⟨hw, hr⟩ := C95_any_points (V := Unit) (ops.map SetCall.toMap) (by
    intro o ho
    obtain ⟨op, h1, rfl⟩ := List.mem_map.1 ho
    have := hops op h1
    cases op <;> trivial)
  have he : keysOf (NoditMap.new : NoditMap K Unit).entrySet = ∅ := by
    ext x; simp [keysOf, NoditMap.entrySet, NoditMap.new, NoditMap.iter]
  have hr := setRun_of (S := ∅) hr
  rw [runCalls_eq]
  refine ⟨wf_iff.1 hw, ?_⟩
  rw [← keysOf_entrySet]
  exact hr
end

/-! ## Non-vacuity -/
section
/-- trees of changing shapes -/
example : ((TreeNodit.new : TreeNodit (Interval Demo.U8) Unit).runSet Demo.shapes Demo.setCalls).2 =
    ((NoditSet.new : NoditSet (Interval Demo.U8)).runCalls Demo.setCalls).2 :=
  (C91_nodit_set Demo.setCalls Demo.shapes Demo.shapes_lawful).1

/-- the tree walked through really has several levels -/
example : ((TreeNodit.new : TreeNodit (Interval Demo.U8) Unit).runSet (fun _ _ => Demo.comb) Demo.setCalls).1.tree =
    Demo.comb [(Demo.iv 10 14, ()), (Demo.iv 17 30, ()), (Demo.iv 200 255, ())] := by
  rfl

/-- a type that cannot represent invalid intervals, without gap queries: the hypotheses of `C87_nodit_set_history` -/
example : ∃ ops : List (SetCall Demo.U8 Sorted),
    (∀ q : Interval Demo.U8, .gapsUntrimmed q ∉ ops ∧ .gapsTrimmed q ∉ ops ∧ .containsInterval q ∉ ops) ∧
    (NoditSet.new.runCalls ops).1.iter = [⟨Demo.u8 0, Demo.u8 3⟩, ⟨Demo.u8 5, Demo.u8 20⟩] ∧
    (NoditSet.new.runCalls (ops.map (SetCall.map toInterval))).2 = [.ok (.strict (.ok ())), .ok (.keys [Demo.iv 5 9]),
      .ok (.keys [Demo.iv 4 4]), .ok (.lookup (.error (Demo.iv 4 4))), .error .invalidInterval] := by
  refine ⟨[.insertStrict ⟨Demo.u8 0, Demo.u8 9⟩, .insertOverwrite ⟨Demo.u8 5, Demo.u8 20⟩, .cut (Demo.iv 4 4), .getAtPoint (Demo.u8 4),
    .insertStrict ⟨Demo.u8 9, Demo.u8 8⟩], by simp, by decide, by rfl⟩

/-- calls that name no neighbouring point -/
example : ∃ ops : List (SetCall Demo.U8 (Interval Demo.U8)), (∀ op ∈ ops, op.NoNeighbours) ∧
    (NoditSet.new.runCalls ops).1.iter = [Demo.iv 3 20, Demo.iv 40 50] :=
  ⟨[.insertStrict (Demo.iv 3 9), .insertMergeOverlapping (Demo.iv 7 20), .insertStrict (Demo.iv 30 32), .removeOverlapping (Demo.iv 31 35),
    .insertStrict (Demo.iv 40 50), .first], by simp [SetCall.NoNeighbours], by decide⟩

open Demo in
/-- equal sets and equal calls, not identical: the hypotheses of `C89_nodit_set_history` -/
example : ∃ (s s' : NoditSet Labelled) (ops ops' : List (SetCall U8 Labelled)), s.equal s' = true ∧
    s.iter.map (·.label) = [1] ∧ s'.iter.map (·.label) = [2] ∧ List.Forall₂ SetCall.Equal ops ops' ∧
    (s.runCalls ops).1.iter.map (fun k => (k.lo.val, k.hi.val, k.label)) = [(0, 5, 1), (8, 9, 7)] ∧
    (s'.runCalls ops').1.iter.map (fun k => (k.lo.val, k.hi.val, k.label)) = [(0, 5, 2), (8, 9, 8)] :=
  ⟨⟨⟨[(⟨u8 0, u8 5, 1⟩, ())]⟩⟩, ⟨⟨[(⟨u8 0, u8 5, 2⟩, ())]⟩⟩, [.insertMergeTouching ⟨u8 8, u8 9, 7⟩, .getAtPoint (u8 3)],
    [.insertMergeTouching ⟨u8 8, u8 9, 8⟩, .getAtPoint (u8 3)], by decide, by decide, by decide,
    .cons (.insertMergeTouching (by decide)) (.cons (.same _) .nil), by decide, by decide⟩

/-- intervals whose `==` compares names only -/
structure Named where
  lo : Demo.U8
  hi : Demo.U8
  name : Nat
instance : BEq Named := ⟨fun a b => a.name == b.name⟩
instance : EquivBEq Named where
  rfl := by intro a; simp [BEq.beq]
  symm := by intro a b h; simp only [BEq.beq, decide_eq_true_eq] at h ⊢; simpa using h.symm
  trans := by intro a b c h h'; simp only [BEq.beq, decide_eq_true_eq] at h h' ⊢; simp_all
instance : IntervalType Demo.U8 Named where
  start k := k.lo
  stop k := k.hi
  ofInterval i := ⟨i.start, i.stop, 0⟩

open Demo in
/-- **C89**: that equal intervals have the same ends is needed. With a lawful interval type whose `==` - an equivalence relation -
compares only a name, two sets are equal, and answer `contains_point` differently. -/
theorem C89_equal_ends_needed :
    EquivBEq Named ∧ LawfulInterval U8 Named ∧
    ∃ s s' : NoditSet Named, s = (NoditSet.new.runCalls [(.insertStrict ⟨u8 0, u8 5, 1⟩ : SetCall U8 Named)]).1 ∧
      s' = (NoditSet.new.runCalls [(.insertStrict ⟨u8 10, u8 20, 1⟩ : SetCall U8 Named)]).1 ∧ s.equal s' = true ∧
      s.containsPoint (u8 3) = .ok true ∧ s'.containsPoint (u8 3) = .ok false := by
  refine ⟨inferInstance, ⟨fun _ => rfl, fun _ => rfl⟩, _, _, rfl, rfl, by decide, by rfl, by rfl⟩
end
end Nodit
