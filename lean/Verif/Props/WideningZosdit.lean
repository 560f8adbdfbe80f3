import Verif.Props.Widening
import Verif.Props.Parametric
/-!
# C104 for `ZosditMap`, and instances of a wider point type
-/
set_option linter.unusedSectionVars false
namespace Nodit
open Spec PointType InclusiveInterval

section
variable {I J K K' Q Q' V : Type} [PointType I] [PointType J] [IntervalType I K] [IntervalType J K']
  [IntervalType I Q] [IntervalType J Q'] {f : I → J} {φ : K → K'}

section
variable (hf : Embeds f) (hφ : Widens f φ)
include hf hφ

omit hφ in
theorem Embeds.eq_iff (a b : I) : f a = f b ↔ a = b := ⟨hf.inj, congrArg f⟩

theorem inclusiveComp_wide (p : I) (o : Ordering) (k : K) : inclusiveComp (f p) o (φ k) = inclusiveComp p o k := by
  simp [inclusiveComp, (hφ.ends k).1, (hφ.ends k).2, hf.lt_iff]
theorem exclusiveComp_wide (p : I) (o : Ordering) (k : K) : exclusiveComp (f p) o (φ k) = exclusiveComp p o k := by
  simp [exclusiveComp, (hφ.ends k).1, (hφ.ends k).2, hf.le_iff, hf.eq_iff]
theorem containsPoint_wide (k : K) (p : I) : InclusiveInterval.containsPoint (φ k) (f p) = InclusiveInterval.containsPoint k p := by
  simp [InclusiveInterval.containsPoint, (hφ.ends k).1, (hφ.ends k).2, hf.le_iff]
omit hφ in
theorem invalidIntervalPanic_wide {q : Q} {q' : Q'} (hq : SameEnds f q q') : invalidIntervalPanic q' = invalidIntervalPanic q := by
  simp [invalidIntervalPanic, isValid, hq.1, hq.2, hf.le_iff]

theorem config_wide (k : K) {q : Q} {q' : Q'} (hq : SameEnds f q q') : config (φ k) q' = config k q := by
  simp [config, containsPointU, cmpPointWithInterval, inclusiveComp, (hφ.ends k).1, (hφ.ends k).2, hq.1, hq.2, hf.lt_iff]

theorem overlaps_wide (k : K) {q : Q} {q' : Q'} (hq : SameEnds f q q') : InclusiveInterval.overlaps (φ k) q' = InclusiveInterval.overlaps k q := by
  simp only [InclusiveInterval.overlaps, sortedConfig, config_wide hf hφ k hq, bind, Except.bind, pure, Except.pure]
  rcases config k q with _ | c
  · rfl
  · cases c <;> rfl

variable [LawfulPoint I] [LawfulPoint J]

omit hφ in
theorem up_wide {a b : I} (h : up a = some b) : up (f a) = some (f b) :=
  up_eq_some.2 ⟨(hf.lt_iff _ _).2 (up_eq_some.1 h).1, fun _ hj => up_widen hf h hj⟩
omit hφ in
theorem down_wide {a b : I} (h : down a = some b) : down (f a) = some (f b) :=
  down_eq_some.2 ⟨(hf.lt_iff _ _).2 (down_eq_some.1 h).1, fun _ hj => down_widen hf h hj⟩

/-- the pieces over the wider point type -/
def CutResult.widen (f : I → J) (c : CutResult I) : CutResult J :=
  ⟨c.beforeCut.map (Interval.widen f), c.insideCut.map (Interval.widen f), c.afterCut.map (Interval.widen f)⟩

theorem cutInterval_wide {k : K} {q : Q} {q' : Q'} (hq : SameEnds f q q') (hk : start k ≤ stop k) (hqv : start q ≤ stop q)
    (ho : start k ≤ stop q ∧ start q ≤ stop k) : cutInterval (φ k) q' = (cutInterval k q).map (CutResult.widen f) := by
  have e1 := (hφ.ends k).1
  have e2 := (hφ.ends k).2
  have e3 := hq.1
  have e4 := hq.2
  rw [cutInterval_ok hk hqv ho, cutInterval_ok (by rw [e1, e2, hf.le_iff]; exact hk) (by rw [e3, e4, hf.le_iff]; exact hqv)
    (by rw [e1, e2, e3, e4, hf.le_iff, hf.le_iff]; exact ho)]
  have hmax : ∀ a b, max (f a) (f b) = f (max a b) := fun a b => by
    rcases le_total a b with h | h <;> simp [h, hf.le_iff]
  have hmin : ∀ a b, min (f a) (f b) = f (min a b) := fun a b => by
    rcases le_total a b with h | h <;> simp [h, hf.le_iff]
  simp only [Except.map, CutResult.widen, e1, e2, e3, e4, hf.lt_iff, hmax, hmin, Option.map_some, Interval.widen]
  congr 2
  · split_ifs with h
    · obtain ⟨d, hd, -⟩ := down_exists h
      rw [hd, down_wide hf hd]; rfl
    · rfl
  · split_ifs with h
    · obtain ⟨d, hd, -⟩ := up_exists h
      rw [hd, up_wide hf hd]; rfl
    · rfl

namespace ZosditMap
variable (m : ZosditMap K V)

omit hf hφ [LawfulPoint I] [LawfulPoint J] in
theorem mem_upperBound {comp : K → Ordering} {W : Type} {l : List (K × W)} {d : K × W}
    (h : d ∈ (BTree.upperBound comp l).before ++ (BTree.upperBound comp l).after) : d ∈ l := by
  unfold BTree.upperBound at h
  have ht := List.takeWhile_append_dropWhile (p := fun e : K × W => comp e.1 != .lt) (l := l)
  cases hg : (l.takeWhile (fun e => comp e.1 != .lt)).getLast? with
  | none => simp only [hg] at h; simpa using h
  | some e =>
    simp only [hg] at h
    have h' := List.dropLast_append_getLast? e hg
    rw [← ht, ← h']
    simpa using h

omit hf hφ [LawfulPoint I] [LawfulPoint J] in
theorem mem_moveNext {W : Type} {c : BTree.Cursor K W} {d : K × W} (h : d ∈ c.moveNext.after) : d ∈ c.before ++ c.after := by
  obtain ⟨b, a⟩ := c
  cases a with
  | nil => simpa [BTree.Cursor.moveNext] using h
  | cons e l => simp only [BTree.Cursor.moveNext] at h; simp [h]

omit [LawfulPoint I] [LawfulPoint J] in
theorem lastAtPointCursor_wide (p : I) : (m.mapEntries φ id).lastAtPointCursor (f p) = BTree.Cursor.mapC φ (List.map id) (m.lastAtPointCursor p) := by
  simp only [lastAtPointCursor, mapEntries, BTree.lowerBound_map (exclusiveComp_wide hf hφ _ _), key_map, Option.isNone_map]
  split_ifs
  · exact movePrev_map _
  · rfl

omit [LawfulPoint I] [LawfulPoint J] in
theorem getLastValueAtPoint_wide (p : I) : (m.mapEntries φ id).getLastValueAtPoint (f p) = m.getLastValueAtPoint p := by
  simp only [getLastValueAtPoint, lastAtPointCursor_wide hf hφ, BTree.Cursor.keyValue, BTree.Cursor.mapC, List.head?_map]
  cases (m.lastAtPointCursor p).after.head? with
  | none => rfl
  | some e => simp only [Option.map_some, Option.filter_some, Prod.map_fst, containsPoint_wide hf hφ]; split_ifs <;> simp

omit [LawfulPoint I] [LawfulPoint J] in
theorem removeLastValueAtPoint_wide (p : I) : (m.mapEntries φ id).removeLastValueAtPoint (f p) =
    (m.removeLastValueAtPoint p).map (Prod.map (mapEntries φ id) id) := by
  simp only [removeLastValueAtPoint, lastAtPointCursor_wide hf hφ, BTree.Cursor.mapC]
  cases (m.lastAtPointCursor p).after with
  | nil => rfl
  | cons e l =>
    obtain ⟨k, vs⟩ := e
    simp only [List.map_cons, Prod.map_apply, containsPoint_wide hf hφ]
    cases InclusiveInterval.containsPoint k p
    · rfl
    · simp only [if_true, List.map_id, bind, Except.bind, pure, Except.pure]
      cases vs.getLast? with
      | none => rfl
      | some v =>
        simp only [unwrap, Except.map]
        split_ifs <;> simp [mapEntries, BTree.Cursor.removeCurrent, BTree.Cursor.entries]

omit [LawfulPoint I] [LawfulPoint J] in
theorem insertComp_wide (a k : K) : insertComp (φ a) (φ k) = insertComp a k := by
  simp only [insertComp, (hφ.ends a).1, (hφ.ends a).2, exclusiveComp_wide hf hφ]

omit [LawfulPoint I] [LawfulPoint J] in
theorem isZeroOverlap_wide {q : Q} {q' : Q'} (hq : SameEnds f q q') : (m.mapEntries φ id).isZeroOverlap q' = m.isZeroOverlap q := by
  simp only [isZeroOverlap, mapEntries, hq.1, hq.2, invalidIntervalPanic_wide hf hq,
    BTree.range_map (exclusiveComp_wide hf hφ _ _) (exclusiveComp_wide hf hφ _ _), List.head?_map, Option.isNone_map]

omit [LawfulPoint I] [LawfulPoint J] in
theorem insertStrictBack_wide (k : K) (v : V) (pick : Nat) : (m.mapEntries φ id).insertStrictBack (φ k) v pick =
    (m.insertStrictBack k v pick).map (Prod.map (mapEntries φ id) id) := by
  unfold insertStrictBack
  simp only [isZeroOverlap_wide hf hφ m (hφ.ends k), invalidIntervalPanic_wide hf (hφ.ends k), bind, Except.bind, pure, Except.pure]
  have he := entryPush_map (ψ := (id : V → V)) (insertComp_wide hf hφ k) k v pick m.inner
  simp only [id] at he
  simp only [mapEntries]
  cases invalidIntervalPanic k with
  | error _ => rfl
  | ok _ =>
    rcases m.isZeroOverlap k with _ | (_ | _)
    · rfl
    · rfl
    · simp only [Bool.not_true, Bool.false_eq_true, if_false]
      have he' : entryPush (insertComp (φ k)) (φ k) v pick (m.inner.map (Prod.map φ (List.map id))) = _ := he
      rw [he']
      cases entryPush (insertComp k) k v pick m.inner <;> rfl

theorem cutLoop_wide {q : Q} {q' : Q'} (hq : SameEnds f q q') (hqv : start q ≤ stop q) (len : Nat) {l : List (K × List V)}
    (hl : ∀ e ∈ l, start e.1 ≤ stop e.1) : cutLoop q' len (l.map (Prod.map φ (List.map id))) =
    (cutLoop q len l).map (Prod.map (List.map (Prod.map φ (List.map id))) (Prod.map (List.map (Prod.map φ id)) id)) := by
  induction l generalizing len with
  | nil => rfl
  | cons e l ih =>
    obtain ⟨k, vs⟩ := e
    have hk : start k ≤ stop k := hl (k, vs) (by simp)
    have ih := fun len => ih len (fun e he => hl e (by simp [he]))
    simp only [List.map_cons, cutLoop, Prod.map_apply, overlaps_wide hf hφ k hq]
    have hoe := overlaps_ok hk hqv
    rw [hoe]
    by_cases ho : start k ≤ stop q ∧ start q ≤ stop k
    · rw [cutInterval_wide hf hφ hq hk hqv ho]
      simp only [ho, bind, Except.bind, and_self, decide_true, Bool.not_true, Bool.false_eq_true, if_false]
      cases hcut : cutInterval k q with
      | error _ => rfl
      | ok c =>
        have hv := cutInterval_valid hcut
        obtain ⟨b, i, a⟩ := c
        have hm : List.mapM (fun v => (do pure ((ofInterval (← unwrap (i.map (Interval.widen f))) : K'), v) : Res (K' × V))) (vs.map id) =
          (List.mapM (fun v => (do pure ((ofInterval (← unwrap i) : K), v) : Res (K × V))) vs).map (List.map (Prod.map φ id)) := by
          rw [List.map_id]
          refine mapM_map (fun v => ?_) vs
          cases i with
          | none => rfl
          | some i => simp [unwrap, Except.map, pure, Except.pure, bind, Except.bind, hφ.of_eq i (valid_iff.2 (hv.2.1 i rfl))]
        simp only [bind, Except.bind] at hm
        simp only [Except.map, CutResult.widen, hm, List.length_map]
        generalize (List.mapM _ vs : Res (List (K × V))) = r
        have hb : ∀ x ∈ b, φ (ofInterval x) = ofInterval (x.widen f) := fun x hx => hφ.of_eq x (valid_iff.2 (hv.1 x hx))
        have ha : ∀ x ∈ a, φ (ofInterval x) = ofInterval (x.widen f) := fun x hx => hφ.of_eq x (valid_iff.2 (hv.2.2 x hx))
        cases b <;> cases a <;> simp only [ih, Option.map_some, Option.map_none] <;> (split_ifs; · rfl) <;> (cases r; · rfl) <;> simp only [Except.map] <;>
          (rcases cutLoop q _ l with _ | ⟨x, y, z⟩ <;> simp [pure, Except.pure]) <;> simp [ha, hb]
    · simp [ho, bind, Except.bind, pure, Except.pure, Except.map]

theorem cut_wide {q : Q} {q' : Q'} (hq : SameEnds f q q') (hm : ∀ e ∈ m.inner, start e.1 ≤ stop e.1) :
    (m.mapEntries φ id).cut q' = (m.cut q).map (Prod.map (mapEntries φ id) (List.map (Prod.map φ id))) := by
  unfold cut
  simp only [mapEntries, hq.1, invalidIntervalPanic_wide hf hq, BTree.upperBound_map (exclusiveComp_wide hf hφ _ _), key_map, Option.isNone_map, moveNext_map,
    bind, Except.bind, pure, Except.pure]
  rw [← apply_ite (BTree.Cursor.mapC φ (List.map id))]
  by_cases hqv : start q ≤ stop q
  · rw [invalidIntervalPanic_ok hqv]
    simp only
    have hc : ∀ e ∈ (if (BTree.upperBound (exclusiveComp (start q) .lt) m.inner).key.isNone = true then
        (BTree.upperBound (exclusiveComp (start q) .lt) m.inner).moveNext else BTree.upperBound (exclusiveComp (start q) .lt) m.inner).after,
        start e.1 ≤ stop e.1 := by
      intro e he
      have hu : ∀ d, d ∈ (BTree.upperBound (exclusiveComp (start q) .lt) m.inner).before ++
          (BTree.upperBound (exclusiveComp (start q) .lt) m.inner).after → start d.1 ≤ stop d.1 := fun d hd => hm d (mem_upperBound hd)
      split_ifs at he
      · exact hu e (mem_moveNext he)
      · exact hu e (List.mem_append_right _ he)
    generalize (if (BTree.upperBound (exclusiveComp (start q) .lt) m.inner).key.isNone = true then _ else _ : BTree.Cursor K (List V)) = c at hc ⊢
    simp only [BTree.Cursor.mapC, cutLoop_wide hf hφ hq hqv _ hc]
    rcases cutLoop q m.len c.after with _ | ⟨x, y, z⟩ <;> simp [Except.map, mapEntries]
  · rw [invalidIntervalPanic_err hqv]; rfl

omit [LawfulPoint I] [LawfulPoint J] in
theorem overlapping_wide {q : Q} {q' : Q'} (hq : SameEnds f q q') :
    (m.mapEntries φ id).overlapping q' = (m.overlapping q).map (List.map (Prod.map φ id)) := by
  unfold overlapping
  simp only [mapEntries, hq.1, hq.2, invalidIntervalPanic_wide hf hq, BTree.range_map (inclusiveComp_wide hf hφ _ _) (inclusiveComp_wide hf hφ _ _), flatten_map, bind, Except.bind, pure, Except.pure]
  cases invalidIntervalPanic q <;> rfl
end ZosditMap
end

/-- the call over the wider point type -/
def Spec.ZOp.widen (f : I → J) (φ : K → K') : ZOp I K V → ZOp J K' V
  | .insertStrictBack k v pick => .insertStrictBack (φ k) v pick
  | .removeLastValueAtPoint p => .removeLastValueAtPoint (f p)
  | .cut q => .cut (q.widen f)

/-- the output over the wider point type: an entry that `cut` returns has the same ends and the same value -/
def Spec.ZOut.widen (φ : K → K') : ZOut K V → ZOut K' V
  | .strict r => .strict r
  | .optValue v => .optValue v
  | .entries l => .entries (l.map (fun e => (φ e.1, e.2)))

section
variable (hf : Embeds f) (hφ : Widens f φ) [LawfulPoint I] [LawfulPoint J] [LawfulInterval I K]
include hf hφ
namespace ZosditMap

omit [LawfulInterval I K] in
theorem step_wide {m : ZosditMap K V} (hm : Good m) (op : ZOp I K V) :
    (m.mapEntries φ id).step (op.widen f φ) = (m.step op).map (Prod.map (mapEntries φ id) (ZOut.widen φ)) := by
  cases op with
  | insertStrictBack k v pick =>
    simp only [ZOp.widen, step, insertStrictBack_wide hf hφ, bind, Except.bind, pure, Except.pure]
    rcases m.insertStrictBack k v pick with _ | ⟨m, _ | _⟩ <;> rfl
  | removeLastValueAtPoint p =>
    simp only [ZOp.widen, step, removeLastValueAtPoint_wide hf hφ, bind, Except.bind, pure, Except.pure]
    cases m.removeLastValueAtPoint p <;> rfl
  | cut q =>
    simp only [ZOp.widen, step, cut_wide hf hφ m (sameEnds_widen q) hm.inv.valid, bind, Except.bind, pure, Except.pure]
    cases m.cut q <;> rfl

theorem run_wide (ops : List (ZOp I K V)) {m : ZosditMap K V} (hm : Good m) :
    (m.mapEntries φ id).run (ops.map (ZOp.widen f φ)) =
      ((m.run ops).1.mapEntries φ id, (m.run ops).2.map (Except.map (ZOut.widen φ))) := by
  induction ops generalizing m with
  | nil => rfl
  | cons op ops ih =>
    simp only [List.map_cons, run, step_wide hf hφ hm]
    rcases step_ok hm op with ⟨-, h1⟩ | ⟨-, m', o, h1, h2, -⟩
    · rw [h1]; simp only [Except.map, ih hm, List.map_cons]
    · rw [h1]; simp only [Except.map, Prod.map, ih h2, List.map_cons]
end ZosditMap

/-- **C104** for `ZosditMap`: after any history, the entries, the length, what every call returned and what every query answers are the
same over the wider point type. -/
theorem C104_zosdit_map (ops : List (ZOp I K V)) {q : Q} {q' : Q'} (hq : SameEnds f q q') (p : I) :
    let z := (ZosditMap.new : ZosditMap K V).run ops
    let z' := (ZosditMap.new : ZosditMap K' V).run (ops.map (ZOp.widen f φ))
    z'.1.iter = z.1.iter.map (fun e => (φ e.1, e.2)) ∧ z'.1.length = z.1.length ∧
    z'.2 = z.2.map (Except.map (ZOut.widen φ)) ∧
    z'.1.overlapping q' = (z.1.overlapping q).map (List.map (fun e => (φ e.1, e.2))) ∧
    z'.1.isZeroOverlap q' = z.1.isZeroOverlap q ∧
    z'.1.getLastValueAtPoint (f p) = z.1.getLastValueAtPoint p ∧
    z'.1.firstKeyValue = z.1.firstKeyValue.map (fun e => (φ e.1, e.2)) ∧
    z'.1.lastKeyValue = z.1.lastKeyValue.map (fun e => (φ e.1, e.2)) := by
  have h := ZosditMap.run_wide hf hφ ops (ZosditMap.good_new : ZosditMap.Good (ZosditMap.new : ZosditMap K V))
  have e : (ZosditMap.new : ZosditMap K V).mapEntries φ id = ZosditMap.new := rfl
  rw [e] at h
  simp only [h]
  exact ⟨ZosditMap.flatten_map _, rfl, trivial, ZosditMap.overlapping_wide hf hφ _ hq, ZosditMap.isZeroOverlap_wide hf hφ _ hq,
    ZosditMap.getLastValueAtPoint_wide hf hφ _ p, ZosditMap.firstKeyValue_map _, ZosditMap.lastKeyValue_map _⟩
end
end

/-! ## Wider point types -/

/-- the conversion of integers (`u16::from(x)` for a `u8`) -/
def BInt.cast {lo hi lo' hi' : Int} (h1 : lo' ≤ lo) (h2 : hi ≤ hi') (x : BInt lo hi) : BInt lo' hi' :=
  ⟨x.val, le_trans h1 x.ge, le_trans x.le h2⟩

/-- **C104**: a wider integer type is a wider point type. -/
theorem C104_integers {lo hi lo' hi' : Int} [Fact (lo ≤ hi)] [Fact (lo' ≤ hi')] (h1 : lo' ≤ lo) (h2 : hi ≤ hi') :
    Embeds (BInt.cast h1 h2 : BInt lo hi → BInt lo' hi') where
  le_iff _ _ := Iff.rfl
  convex a b j ha hb := ⟨⟨j.val, le_trans a.ge ha, le_trans hb b.le⟩, rfl⟩

/-- **C104**: the README's `WithInfinity<T>` is wider than `T`. -/
theorem C104_withInfinity {I : Type} [PointType I] : Embeds (WithInfinity.finite : I → WithInfinity I) where
  le_iff _ _ := Iff.rfl
  convex a b j _ hb := by
    cases j with
    | finite x => exact ⟨x, rfl⟩
    | infinity => exact (hb : False).elim

/-- **C104**: `Interval<I>` becomes `Interval<J>` by converting the ends. -/
theorem C104_intervals {I J : Type} [PointType I] [PointType J] (f : I → J) : Widens f (Interval.widen f) where
  ends _ := ⟨rfl, rfl⟩
  of_eq _ _ := rfl

namespace Demo
/-- `u16` -/
abbrev U16 := UInt' 16
/-- `u16::from` -/
def to16 : U8 → U16 := BInt.cast (by decide) (by decide)
theorem embeds16 : Embeds to16 := C104_integers (by decide) (by decide)
/-- a `u16` interval literal -/
def iv16 (a b : Int) : Interval U16 := ⟨BInt.wrapInt 0 65535 (by decide) a, BInt.wrapInt 0 65535 (by decide) b⟩

/-- a history of a `u8` map, with gaps at both ends -/
def ops8 : List (Op U8 (Interval U8) Nat) :=
  [.insertStrict (iv 10 20) 8, .insertOverwrite (iv 13 15) 9, .insertMergeTouching (iv 100 200) 1, .cut (iv 2 11),
    .gapsUntrimmed (iv 0 255), .gapsTrimmed (iv 0 255), .getKeyValueAtPoint (u8 255), .insertStrict (iv 9 5) 3, .iter]
/-- the same history of a `u16` map -/
def ops16 : List (Op U16 (Interval U16) Nat) :=
  [.insertStrict (iv16 10 20) 8, .insertOverwrite (iv16 13 15) 9, .insertMergeTouching (iv16 100 200) 1, .cut (iv16 2 11),
    .gapsUntrimmed (iv16 0 255), .gapsTrimmed (iv16 0 255), .getKeyValueAtPoint (to16 (u8 255)), .insertStrict (iv16 9 5) 3, .iter]

theorem widened16 : List.Forall₂ (Op.Widened to16 (Interval.widen to16)) ops8 ops16 := by
  unfold ops8 ops16
  repeat' constructor
end Demo

/-- `u8` becomes `u16`: the gap `201..=255` becomes `201..=65535`, all else stays. -/
example : ((NoditMap.new : NoditMap (Interval Demo.U16) Nat).run Demo.ops16).1.iter =
    ((NoditMap.new : NoditMap (Interval Demo.U8) Nat).run Demo.ops8).1.iter.map (Prod.map (Interval.widen Demo.to16) id) :=
  (C104_nodit_map Demo.embeds16 (C104_intervals _) Demo.widened16).1
example : (((NoditMap.new : NoditMap (Interval Demo.U8) Nat).run Demo.ops8).2.map Except.toOption).drop 3 =
    [some (.entries [(Demo.iv 10 11, 8)]), some (.keys [Demo.iv 0 11, Demo.iv 21 99, Demo.iv 201 255]),
      some (.keys [Demo.iv 0 11, Demo.iv 21 99, Demo.iv 201 255]), some (.lookup (.error (Demo.iv 201 255))), none,
      some (.entries [(Demo.iv 12 12, 8), (Demo.iv 13 15, 9), (Demo.iv 16 20, 8), (Demo.iv 100 200, 1)])] := rfl
example : (((NoditMap.new : NoditMap (Interval Demo.U16) Nat).run Demo.ops16).2.map Except.toOption).drop 3 =
    [some (.entries [(Demo.iv16 10 11, 8)]), some (.keys [Demo.iv16 0 11, Demo.iv16 21 99, Demo.iv16 201 65535]),
      some (.keys [Demo.iv16 0 11, Demo.iv16 21 99, Demo.iv16 201 255]), some (.lookup (.error (Demo.iv16 201 65535))), none,
      some (.entries [(Demo.iv16 12 12, 8), (Demo.iv16 13 15, 9), (Demo.iv16 16 20, 8), (Demo.iv16 100 200, 1)])] := rfl

/-- `u8` becomes `WithInfinity<u8>`, for a `ZosditMap`: the theorem applies to any history. -/
example (ops : List (ZOp Demo.U8 (Interval Demo.U8) Nat)) :
    ((ZosditMap.new : ZosditMap (Interval (WithInfinity Demo.U8)) Nat).run (ops.map (ZOp.widen .finite (Interval.widen .finite)))).1.length =
      ((ZosditMap.new : ZosditMap (Interval Demo.U8) Nat).run ops).1.length :=
  (C104_zosdit_map C104_withInfinity (C104_intervals _) ops (sameEnds_widen (Demo.iv 0 0)) (Demo.u8 0)).2.1

/-- `u8` becomes `u16`, for a `Gqdit`: a history that does not panic, with a gap at the end of the point type. -/
example : ∃ (h : GqHist Demo.U8 (Interval Demo.U8) (Fin 2)) (g : Gqdit (Interval Demo.U8) (Fin 2)) (g' : Gqdit (Interval Demo.U16) (Fin 2)),
    Gqdit.eval h = .ok g ∧ Gqdit.eval (h.widen Demo.to16 (Interval.widen Demo.to16)) = .ok g' ∧
    g.gapsWithIdentifier 0 (Demo.iv 0 255) = .ok [Demo.iv 3 255] ∧ g'.gapsWithIdentifier 0 (Demo.iv16 0 255) = .ok [Demo.iv16 3 65535] := by
  refine ⟨.insert (.insert .new {0} (Demo.iv 3 7)) {1} (Demo.iv 0 2), _, _, rfl, rfl, ?_, ?_⟩ <;> decide
end Nodit
