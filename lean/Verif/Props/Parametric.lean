import Verif.History
import Verif.Props.MapProps
import Verif.Props.Demo
import Verif.Props.CustomTypes
/-!
# C87, C88: only `start`, `end` and `From<Interval>` of keys matter; values and identifiers are never looked at
-/
set_option linter.unusedSectionVars false
namespace Nodit
open Spec PointType InclusiveInterval

/-- `φ` turns one interval type into another, keeping `start`, `end` and the conversion from an `Interval` with property `P` -/
structure KeepsInterval {I K K' : Type} [IntervalType I K] [IntervalType I K'] (P : Interval I → Prop) (φ : K → K') : Prop where
  start_eq : ∀ k, start (φ k) = start k
  stop_eq : ∀ k, stop (φ k) = stop k
  of_eq : ∀ i : Interval I, P i → φ (ofInterval i) = ofInterval i

section
variable {I K K' Q V V' : Type} [PointType I] [IntervalType I K] [IntervalType I K'] [IntervalType I Q]
variable {φ : K → K'} {ψ : V → V'} {P : Interval I → Prop}

/-! ## Comparators and intervals -/
section
variable (hφ : KeepsInterval P φ)
include hφ

theorem overlappingComp_map (p : I) (k : K) : overlappingComp p (φ k) = overlappingComp p k := by
  simp [overlappingComp, cmpPointWithInterval, inclusiveComp, hφ.start_eq, hφ.stop_eq]
theorem inclusiveComp_map (p : I) (o : Ordering) (k : K) : inclusiveComp p o (φ k) = inclusiveComp p o k := by
  simp [inclusiveComp, hφ.start_eq, hφ.stop_eq]
theorem exclusiveComp_map (p : I) (o : Ordering) (k : K) : exclusiveComp p o (φ k) = exclusiveComp p o k := by
  simp [exclusiveComp, hφ.start_eq, hφ.stop_eq]
theorem startsComp_map (a k : K) : startsComp (φ a) (φ k) = startsComp a k := by
  simp [startsComp, hφ.start_eq]
theorem touchingStartComp_map (p : I) (k : K) : touchingStartComp p (φ k) = touchingStartComp p k := by
  simp [touchingStartComp, hφ.stop_eq]
theorem touchingEndComp_map (p : I) (k : K) : touchingEndComp p (φ k) = touchingEndComp p k := by
  simp [touchingEndComp, hφ.start_eq]
theorem isValid_map (k : K) : isValid (φ k) = isValid k := by simp [isValid, hφ.start_eq, hφ.stop_eq]
theorem containsPoint_map (k : K) (p : I) : InclusiveInterval.containsPoint (φ k) p = InclusiveInterval.containsPoint k p := by
  simp [InclusiveInterval.containsPoint, hφ.start_eq, hφ.stop_eq]
theorem invalidIntervalPanic_map (k : K) : invalidIntervalPanic (φ k) = invalidIntervalPanic k := by
  simp [invalidIntervalPanic, isValid_map hφ]
theorem config_map_left (k : K) (q : Q) : config (φ k) q = config k q := by
  simp [config, containsPointU, cmpPointWithInterval, inclusiveComp, hφ.start_eq, hφ.stop_eq]
theorem config_map_right (k : K) (q : Q) : config q (φ k) = config q k := by
  simp [config, containsPointU, cmpPointWithInterval, inclusiveComp, hφ.start_eq, hφ.stop_eq]
theorem sortedConfig_map_left (k : K) (q : Q) : sortedConfig (φ k) q = sortedConfig k q := by
  simp [sortedConfig, config_map_left hφ, hφ.start_eq, hφ.stop_eq]
theorem sortedConfig_map_right (k : K) (q : Q) : sortedConfig q (φ k) = sortedConfig q k := by
  simp [sortedConfig, config_map_right hφ, hφ.start_eq, hφ.stop_eq]
theorem overlaps_map_left (k : K) (q : Q) : InclusiveInterval.overlaps (φ k) q = InclusiveInterval.overlaps k q := by
  simp [InclusiveInterval.overlaps, sortedConfig_map_left hφ]
theorem overlaps_map_right (k : K) (q : Q) : InclusiveInterval.overlaps q (φ k) = InclusiveInterval.overlaps q k := by
  simp [InclusiveInterval.overlaps, sortedConfig_map_right hφ]
theorem cutInterval_map_left (k : K) (q : Q) : cutInterval (φ k) q = cutInterval k q := by
  simp [cutInterval, cutIntervalRaw, config_map_left hφ, hφ.start_eq, hφ.stop_eq]
theorem cutInterval_map_right (k : K) (q : Q) : cutInterval q (φ k) = cutInterval q k := by
  simp [cutInterval, cutIntervalRaw, config_map_right hφ, hφ.start_eq, hφ.stop_eq]
end

/-! ## The container -/
namespace BTree
variable {comp : K → Ordering} {comp' : K' → Ordering} (hc : ∀ k, comp' (φ k) = comp k)
include hc

theorem find_map (l : List (K × V)) : find comp' (l.map (Prod.map φ ψ)) = (find comp l).map (Prod.map φ ψ) := by
  induction l with
  | nil => rfl
  | cons e l ih => simp only [List.map_cons, find, Prod.map_fst, hc]; cases comp e.1 <;> simp [ih]

omit hc in
theorem find_mem {l : List (K × V)} {e : K × V} (h : find comp l = some e) : e ∈ l ∧ comp e.1 = .eq := by
  induction l with
  | nil => cases h
  | cons d l ih =>
    unfold find at h
    cases hc : comp d.1 with
    | lt => simp [hc] at h
    | eq => simp only [hc] at h; cases h; exact ⟨List.mem_cons_self, hc⟩
    | gt => simp only [hc] at h; exact ⟨List.mem_cons_of_mem _ (ih h).1, (ih h).2⟩

theorem remove_map (l : List (K × V)) : remove comp' (l.map (Prod.map φ ψ)) = (remove comp l).map (Prod.map φ ψ) := by
  induction l with
  | nil => rfl
  | cons e l ih => simp only [List.map_cons, remove, Prod.map_fst, hc]; cases comp e.1 <;> simp [ih]

theorem modify_map {f : K → V → V} {f' : K' → V' → V'} (hf : ∀ k v, f' (φ k) (ψ v) = ψ (f k v)) (l : List (K × V)) :
    modify comp' f' (l.map (Prod.map φ ψ)) = (modify comp f l).map (Prod.map φ ψ) := by
  induction l with
  | nil => rfl
  | cons e l ih => simp only [List.map_cons, modify, Prod.map_fst, hc]; cases comp e.1 <;> simp [ih, hf]

theorem insert_map (k : K) (v : V) (l : List (K × V)) :
    insert comp' (φ k) (ψ v) (l.map (Prod.map φ ψ)) = (insert comp k v l).map (Prod.map φ ψ) := by
  induction l with
  | nil => rfl
  | cons e l ih => simp only [List.map_cons, insert, Prod.map_fst, hc]; cases comp e.1 <;> simp [ih]

theorem takeWhile_map' (P : Ordering → Bool) (l : List (K × V)) :
    (l.map (Prod.map φ ψ)).takeWhile (fun e => P (comp' e.1)) = (l.takeWhile (fun e => P (comp e.1))).map (Prod.map φ ψ) := by
  rw [List.takeWhile_map]; congr 1; simp [Function.comp_def, hc]
theorem dropWhile_map' (P : Ordering → Bool) (l : List (K × V)) :
    (l.map (Prod.map φ ψ)).dropWhile (fun e => P (comp' e.1)) = (l.dropWhile (fun e => P (comp e.1))).map (Prod.map φ ψ) := by
  rw [List.dropWhile_map]; congr 1; simp [Function.comp_def, hc]

theorem range_map {up : K → Ordering} {up' : K' → Ordering} (hu : ∀ k, up' (φ k) = up k) (l : List (K × V)) :
    range comp' up' (l.map (Prod.map φ ψ)) = (range comp up l).map (Prod.map φ ψ) := by
  unfold range
  rw [dropWhile_map' hc (fun o => o == .gt), takeWhile_map' hu (fun o => o != .lt)]

theorem rangeMut_map {up : K → Ordering} {up' : K' → Ordering} (hu : ∀ k, up' (φ k) = up k)
    {f : K → V → V} {f' : K' → V' → V'} (hf : ∀ k v, f' (φ k) (ψ v) = ψ (f k v)) (l : List (K × V)) :
    rangeMut comp' up' f' (l.map (Prod.map φ ψ)) = (rangeMut comp up f l).map (Prod.map φ ψ) := by
  unfold rangeMut
  simp only [dropWhile_map' hc (fun o => o == .gt), takeWhile_map' hu (fun o => o != .lt), takeWhile_map' hc (fun o => o == .gt),
    dropWhile_map' hu (fun o => o != .lt), List.map_append, List.map_map]
  congr 2
  simp [Function.comp_def, hf]

/-- a cursor over the mapped entries -/
def Cursor.mapC (φ : K → K') (ψ : V → V') (c : Cursor K V) : Cursor K' V' := ⟨c.before.map (Prod.map φ ψ), c.after.map (Prod.map φ ψ)⟩

theorem lowerBound_map (l : List (K × V)) :
    lowerBound comp' (l.map (Prod.map φ ψ)) = Cursor.mapC φ ψ (lowerBound comp l) := by
  simp only [lowerBound, Cursor.mapC, dropWhile_map' hc (fun o => o == .gt), takeWhile_map' hc (fun o => o == .gt)]

theorem upperBound_map (l : List (K × V)) :
    upperBound comp' (l.map (Prod.map φ ψ)) = Cursor.mapC φ ψ (upperBound comp l) := by
  simp only [upperBound, dropWhile_map' hc (fun o => o != .lt), takeWhile_map' hc (fun o => o != .lt), List.getLast?_map]
  cases (l.takeWhile (fun e => comp e.1 != .lt)).getLast? <;> simp [Cursor.mapC, List.map_dropLast]
end BTree

theorem key_map (c : BTree.Cursor K V) : (BTree.Cursor.mapC φ ψ c).key = c.key.map φ := by
  simp only [BTree.Cursor.mapC, BTree.Cursor.key, List.head?_map, Option.map_map]; rfl

/-- mapping the results of a fallible loop -/
theorem mapM_map {α β γ : Type} {f : α → Res β} {f' : α → Res γ} {φ : β → γ} (h : ∀ w, f' w = (f w).map φ) (ws : List α) :
    ws.mapM f' = (ws.mapM f).map (List.map φ) := by
  induction ws with
  | nil => rfl
  | cons w ws ih =>
    rw [List.mapM_cons, List.mapM_cons, ih, h]
    simp only [bind, Except.bind, pure, Except.pure]
    cases f w with
    | error _ => rfl
    | ok a => simp only [Except.map]; cases ws.mapM f <;> rfl

/-! ## `NoditMap` -/
namespace NoditMap

/-- the map with intervals and values replaced -/
def mapEntries (φ : K → K') (ψ : V → V') (m : NoditMap K V) : NoditMap K' V' := ⟨m.inner.map (Prod.map φ ψ)⟩

/-- the conversion is kept for all intervals, or for the valid ones and the map is well-formed -/
def Fine (P : Interval I → Prop) (K' : Type) [IntervalType I K'] (m : NoditMap K V) : Prop :=
  (∀ i, P i) ∨ (LawfulPoint I ∧ LawfulInterval I K' ∧ (∀ i : Interval I, i.start ≤ i.stop → P i) ∧ Chain m.inner)

theorem Fine.valid {m : NoditMap K V} (h : Fine P K' m) (i : Interval I) (hi : i.start ≤ i.stop) : P i :=
  h.elim (fun h => h i) (fun h => h.2.2.1 i hi)

theorem Fine.gap {m : NoditMap K V} (h : Fine P K' m) {p : I} (hf : BTree.find (overlappingComp p) m.inner = none) {g : Interval I}
    (hg : m.getGapAtRaw p = .ok g) : P g := by
  rcases h with h | ⟨_, -, h2, h3⟩
  · exact h g
  · rcases find_point h3 p with ⟨e, -, -, hf', -⟩ | ⟨hn, -⟩
    · rw [hf] at hf'; cases hf'
    · obtain ⟨g', hg', -, h4, h5⟩ := getGapAtRaw_spec h3 hn
      rw [hg] at hg'; cases hg'
      exact h2 g (le_trans h4 h5)

theorem Fine.gapAt {m : NoditMap K V} (h : Fine P K' m) {p : I} {g : Interval I} (hg : m.gapAt p = .ok (some g)) : P g := by
  unfold NoditMap.gapAt at hg
  cases hf : BTree.find (overlappingComp p) m.inner with
  | some e => simp [hf, pure, Except.pure] at hg
  | none =>
    simp only [hf, Option.isSome_none, Bool.false_eq_true, if_false, bind, Except.bind, pure, Except.pure] at hg
    cases hr : m.getGapAtRaw p with
    | error _ => rw [hr] at hg; cases hg
    | ok g' => rw [hr] at hg; cases hg; exact h.gap hf hr

theorem Fine.gapAt' {m : NoditMap K V} (h : Fine P K' m) {p : I} {g : Interval I} (hg : m.gapAt p = .ok (some g)) :
    (∀ i, P i) ∨ (g.start ≤ p ∧ p ≤ g.stop) := by
  rcases h with h | ⟨_, -, h2, h3⟩
  · exact Or.inl h
  · rcases gapAt_spec h3 p with ⟨-, h4⟩ | ⟨-, g', h4, -, h5⟩
    · rw [hg] at h4; cases h4
    · rw [hg] at h4; cases h4; exact Or.inr h5

theorem Fine.entry {m : NoditMap K V} (h : Fine P K' m) : (∀ i, P i) ∨ ∀ e ∈ m.inner, start e.1 ≤ stop e.1 :=
  h.imp_right fun h => h.2.2.2.1

section
variable (hφ : KeepsInterval P φ) (m : NoditMap K V)
include hφ

theorem overlapping_map (q : Q) : (m.mapEntries φ ψ).overlapping q = (m.overlapping q).map (List.map (Prod.map φ ψ)) := by
  unfold overlapping
  simp only [bind, Except.bind, pure, Except.pure, mapEntries]
  cases invalidIntervalPanic q
  · rfl
  · simp only [Except.map, BTree.range_map (overlappingComp_map hφ _) (overlappingComp_map hφ _)]

theorem overlaps_map (q : Q) : (m.mapEntries φ ψ).overlaps q = m.overlaps q := by
  unfold overlaps
  simp only [overlapping_map hφ, bind, Except.bind, pure, Except.pure]
  cases invalidIntervalPanic q
  · rfl
  · cases m.overlapping q <;> simp [Except.map]

theorem overlappingMut_map {f : K → V → V} {f' : K' → V' → V'} (hf : ∀ k v, f' (φ k) (ψ v) = ψ (f k v)) (q : Q) :
    (m.mapEntries φ ψ).overlappingMut q f' = (m.overlappingMut q f).map (mapEntries φ ψ) := by
  unfold overlappingMut
  simp only [bind, Except.bind, pure, Except.pure, mapEntries]
  cases invalidIntervalPanic q
  · rfl
  · simp only [Except.map, BTree.rangeMut_map (overlappingComp_map hφ _) (overlappingComp_map hφ _) hf]; rfl

theorem getGapAtRaw_map (p : I) : (m.mapEntries φ ψ).getGapAtRaw p = m.getGapAtRaw p := by
  unfold getGapAtRaw
  simp only [mapEntries, BTree.lowerBound_map (overlappingComp_map hφ _), BTree.upperBound_map (overlappingComp_map hφ _), key_map]
  cases (BTree.upperBound (overlappingComp p) m.inner).key <;> cases (BTree.lowerBound (overlappingComp p) m.inner).key <;>
    simp [hφ.start_eq, hφ.stop_eq]

theorem getKeyValueAtPoint_map (hm : Fine P K' m) (p : I) : (m.mapEntries φ ψ).getKeyValueAtPoint p =
    (m.getKeyValueAtPoint p).map (fun r => match r with | .ok e => .ok (Prod.map φ ψ e) | .error g => .error (φ g)) := by
  unfold getKeyValueAtPoint
  rw [getGapAtRaw_map hφ]
  simp only [mapEntries, BTree.find_map (overlappingComp_map hφ _)]
  cases hf : BTree.find (overlappingComp p) m.inner with
  | some e => rfl
  | none =>
    simp only [Option.map_none, bind, Except.bind, pure, Except.pure]
    cases hg : m.getGapAtRaw p with
    | error _ => rfl
    | ok g => simp [Except.map, hφ.of_eq g (hm.gap hf hg)]

theorem getAtPoint_map (p : I) : (m.mapEntries φ ψ).getAtPoint p = (m.getAtPoint p).map (Option.map ψ) := by
  unfold getAtPoint getKeyValueAtPoint
  rw [getGapAtRaw_map hφ]
  simp only [mapEntries, BTree.find_map (overlappingComp_map hφ _), bind, Except.bind, pure, Except.pure]
  cases BTree.find (overlappingComp p) m.inner with
  | some e => rfl
  | none => simp only [Option.map_none]; cases m.getGapAtRaw p <;> rfl

theorem containsPoint_map' (p : I) : (m.mapEntries φ ψ).containsPoint p = m.containsPoint p := by
  unfold containsPoint getKeyValueAtPoint
  rw [getGapAtRaw_map hφ]
  simp only [mapEntries, BTree.find_map (overlappingComp_map hφ _), bind, Except.bind, pure, Except.pure]
  cases BTree.find (overlappingComp p) m.inner with
  | some e => rfl
  | none => simp only [Option.map_none]; cases m.getGapAtRaw p <;> rfl

theorem getAtPointMut_map {f : V → V} {f' : V' → V'} (hf : ∀ v, f' (ψ v) = ψ (f v)) (p : I) :
    (m.mapEntries φ ψ).getAtPointMut p f' =
      ((m.getAtPointMut p f).1.mapEntries φ ψ, (m.getAtPointMut p f).2.map ψ) := by
  unfold getAtPointMut
  simp only [mapEntries, BTree.find_map (overlappingComp_map hφ _), Option.map_map,
    BTree.modify_map (overlappingComp_map hφ _) (f := fun _ v => f v) (f' := fun _ v => f' v) (fun _ v => hf v)]
  rfl

theorem removeLoop_map (q : Q) (l : List (K × V)) : removeLoop q (l.map (Prod.map φ ψ)) =
    (removeLoop q l).map (Prod.map (List.map (Prod.map φ ψ)) (List.map (Prod.map φ ψ))) := by
  induction l with
  | nil => rfl
  | cons e l ih =>
    simp only [List.map_cons, removeLoop, Prod.map_fst, overlaps_map_right hφ, bind, Except.bind, pure, Except.pure, ih]
    cases InclusiveInterval.overlaps q e.1 with
    | error _ => rfl
    | ok b =>
      cases b with
      | false => rfl
      | true => simp only [if_true]; cases removeLoop q l <;> rfl

theorem removeOverlapping_map (q : Q) : (m.mapEntries φ ψ).removeOverlapping q =
    (m.removeOverlapping q).map (Prod.map (mapEntries φ ψ) (List.map (Prod.map φ ψ))) := by
  unfold removeOverlapping
  simp only [mapEntries, BTree.lowerBound_map (overlappingComp_map hφ _), BTree.Cursor.mapC, removeLoop_map hφ, bind, Except.bind,
    pure, Except.pure]
  cases invalidIntervalPanic q with
  | error _ => rfl
  | ok _ =>
    simp only
    cases removeLoop q (BTree.lowerBound (overlappingComp (start q)) m.inner).after <;> simp [Except.map, mapEntries]

omit hφ in
/-- the parts that `cut_interval` returns are valid (it filters them) -/
theorem _root_.Nodit.cutInterval_valid {k : K} {q : Q} {c : CutResult I} (h : cutInterval k q = .ok c) :
    (∀ i ∈ c.beforeCut, i.start ≤ i.stop) ∧ (∀ i ∈ c.insideCut, i.start ≤ i.stop) ∧ ∀ i ∈ c.afterCut, i.start ≤ i.stop := by
  unfold cutInterval at h
  cases hr : cutIntervalRaw k q with
  | error _ => rw [hr] at h; cases h
  | ok r =>
    rw [hr] at h
    cases h
    simp only [Option.mem_def, Option.filter_eq_some_iff, InclusiveInterval.isValid, decide_eq_true_eq]
    exact ⟨fun i h => h.2, fun i h => h.2, fun i h => h.2⟩

theorem cutLoop_map (hP : ∀ i : Interval I, i.start ≤ i.stop → P i) (q : Q) (l : List (K × V)) : cutLoop q (l.map (Prod.map φ ψ)) =
    (cutLoop q l).map (Prod.map (List.map (Prod.map φ ψ)) (List.map (Prod.map φ ψ))) := by
  induction l with
  | nil => rfl
  | cons e l ih =>
    obtain ⟨k, v⟩ := e
    simp only [List.map_cons, cutLoop, Prod.map_apply, overlaps_map_left hφ, cutInterval_map_left hφ, bind, Except.bind, pure,
      Except.pure, ih]
    cases InclusiveInterval.overlaps k q with
    | error _ => rfl
    | ok b =>
      cases b with
      | false => rfl
      | true =>
        simp only [Bool.not_true, Bool.false_eq_true, if_false]
        cases hcut : cutInterval k q with
        | error _ => rfl
        | ok c =>
          have hv := cutInterval_valid hcut
          obtain ⟨b, i, a⟩ := c
          cases i with
          | none => rfl
          | some i =>
            simp only [unwrap]
            have hi := hφ.of_eq i (hP i (hv.2.1 i rfl))
            cases cutLoop q l with
            | error _ => rfl
            | ok r =>
              cases b with
              | none =>
                cases a with
                | none => simp [Except.map, hi]
                | some a => simp [Except.map, hi, hφ.of_eq a (hP a (hv.2.2 a rfl))]
              | some b =>
                have hb := hφ.of_eq b (hP b (hv.1 b rfl))
                cases a with
                | none => simp [Except.map, hi, hb]
                | some a => simp [Except.map, hi, hb, hφ.of_eq a (hP a (hv.2.2 a rfl))]

theorem cut_map (hP : ∀ i : Interval I, i.start ≤ i.stop → P i) (q : Q) : (m.mapEntries φ ψ).cut q =
    (m.cut q).map (Prod.map (mapEntries φ ψ) (List.map (Prod.map φ ψ))) := by
  unfold cut
  simp only [mapEntries, BTree.lowerBound_map (overlappingComp_map hφ _), BTree.Cursor.mapC, cutLoop_map hφ hP, bind, Except.bind,
    pure, Except.pure]
  cases invalidIntervalPanic q with
  | error _ => rfl
  | ok _ =>
    simp only
    cases cutLoop q (BTree.lowerBound (overlappingComp (start q)) m.inner).after <;> simp [Except.map, mapEntries]

omit hφ in
theorem mapM_filter_map {α β γ : Type} {f : α → Res β} {f' : α → Res γ} {φ : β → γ} {p : β → Bool} {p' : γ → Bool}
    (h : ∀ w, (∃ e, f w = .error e ∧ f' w = .error e) ∨ (∃ b, f w = .ok b ∧ f' w = .ok (φ b) ∧ p' (φ b) = p b) ∨
      ∃ b c, f w = .ok b ∧ f' w = .ok c ∧ p b = false ∧ p' c = false) (ws : List α) :
    (ws.mapM f').map (List.filter p') = ((ws.mapM f).map (List.filter p)).map (List.map φ) := by
  induction ws with
  | nil => rfl
  | cons w ws ih =>
    rw [List.mapM_cons, List.mapM_cons]
    simp only [bind, Except.bind, pure, Except.pure]
    generalize ws.mapM f = r, ws.mapM f' = r' at ih
    rcases h w with ⟨e, h1, h2⟩ | ⟨b, h1, h2, h3⟩ | ⟨b, c, h1, h2, h3, h4⟩
    · simp only [h1, h2]; rfl
    · simp only [h1, h2]
      cases r <;> cases r' <;> simp only [Except.map, Except.error.injEq, Except.ok.injEq, reduceCtorEq] at ih ⊢
      · exact ih
      · simp only [List.filter_cons, h3, ih]; split_ifs <;> simp
    · simp only [h1, h2]
      cases r <;> cases r' <;> simp only [Except.map, Except.error.injEq, Except.ok.injEq, reduceCtorEq] at ih ⊢
      · exact ih
      · simp only [List.filter_cons, h3, h4, ih]; simp

theorem innerGaps_map (hI : ∀ i : Interval I, ¬ P i → isValid (ofInterval i : K) = false ∧ isValid (ofInterval i : K') = false)
    (l : List (K × V)) : (innerGaps (l.map (Prod.map φ ψ)) : Res (List K')) = (innerGaps l).map (List.map φ) := by
  unfold innerGaps
  have e : (l.map (Prod.map φ ψ)).map (fun e => (start e.1, stop e.1)) = l.map (fun e => (start e.1, stop e.1)) := by
    simp [hφ.start_eq, hφ.stop_eq]
  rw [e]
  generalize tupleWindows (l.map (fun e => (start e.1, stop e.1))) = ws
  have := mapM_filter_map (φ := φ) (p := fun k : K => isValid k) (p' := fun k : K' => isValid k)
    (f := fun w : (I × I) × (I × I) => (do
        let s ← unwrap (up w.1.2)
        let e ← unwrap (down w.2.1)
        pure (ofInterval { start := s, stop := e } : K) : Res K))
    (f' := fun w : (I × I) × (I × I) => (do
        let s ← unwrap (up w.1.2)
        let e ← unwrap (down w.2.1)
        pure (ofInterval { start := s, stop := e } : K') : Res K')) (by
      intro w
      simp only [bind, Except.bind, pure, Except.pure]
      cases unwrap (up w.1.2) with
      | error _ => exact Or.inl ⟨_, rfl, rfl⟩
      | ok a =>
        cases unwrap (down w.2.1) with
        | error _ => exact Or.inl ⟨_, rfl, rfl⟩
        | ok b =>
          by_cases hp : P ⟨a, b⟩
          · exact Or.inr (Or.inl ⟨_, rfl, by rw [hφ.of_eq _ hp], isValid_map hφ _⟩)
          · exact Or.inr (Or.inr ⟨_, _, rfl, rfl, hI _ hp⟩)) ws
  simp only [bind, Except.bind, pure, Except.pure] at this ⊢
  generalize (ws.mapM _ : Res (List K)) = r, (ws.mapM _ : Res (List K')) = r' at this ⊢
  cases r <;> cases r' <;> simpa [Except.map] using this

theorem gapAt_map (p : I) : (m.mapEntries φ ψ).gapAt p = m.gapAt p := by
  unfold gapAt
  rw [getGapAtRaw_map hφ]
  simp only [mapEntries, BTree.find_map (overlappingComp_map hφ _), Option.isSome_map]

theorem gapsUntrimmed_map (hm : Fine P K' m) (hI : ∀ i : Interval I, ¬ P i → isValid (ofInterval i : K) = false ∧ isValid (ofInterval i : K') = false)
    (q : Q) : (m.mapEntries φ ψ).gapsUntrimmed q = (m.gapsUntrimmed q).map (List.map φ) := by
  unfold gapsUntrimmed
  simp only [gapAt_map hφ, overlapping_map hφ, bind, Except.bind, pure, Except.pure]
  cases invalidIntervalPanic q with
  | error _ => rfl
  | ok _ =>
  cases ha : m.gapAt (start q) with
  | error _ => rfl
  | ok a =>
  cases hb : m.gapAt (stop q) with
  | error _ => rfl
  | ok b =>
  cases m.overlapping q with
  | error _ => rfl
  | ok l =>
    simp only [Except.map, innerGaps_map hφ hI]
    cases innerGaps l with
    | error _ => rfl
    | ok gs =>
      have ha' : ∀ g, a = some g → φ (ofInterval g) = ofInterval g := fun g h => hφ.of_eq g (hm.gapAt (h ▸ ha))
      have hb' : ∀ g, b = some g → φ (ofInterval g) = ofInterval g := fun g h => hφ.of_eq g (hm.gapAt (h ▸ hb))
      cases a with
      | none =>
        cases b with
        | none => simp
        | some b => simp [hb' b rfl]
      | some a =>
        cases b with
        | none => simp [ha' a rfl]
        | some b => simp [ha' a rfl, hb' b rfl]; split_ifs <;> simp [ha' a rfl, hb' b rfl]

theorem gapsTrimmed_map (hm : Fine P K' m) (hI : ∀ i : Interval I, ¬ P i → isValid (ofInterval i : K) = false ∧ isValid (ofInterval i : K') = false)
    (q : Q) : (m.mapEntries φ ψ).gapsTrimmed q = (m.gapsTrimmed q).map (List.map φ) := by
  unfold gapsTrimmed
  simp only [gapAt_map hφ, overlapping_map hφ, bind, Except.bind, pure, Except.pure]
  by_cases hq : start q ≤ stop q
  case neg => rw [invalidIntervalPanic_err hq]; rfl
  rw [invalidIntervalPanic_ok hq]
  simp only
  cases ha : m.gapAt (start q) with
  | error _ => rfl
  | ok a =>
  cases hb : m.gapAt (stop q) with
  | error _ => rfl
  | ok b =>
  cases m.overlapping q with
  | error _ => rfl
  | ok l =>
    simp only [Except.map, innerGaps_map hφ hI]
    cases innerGaps l with
    | error _ => rfl
    | ok gs =>
      have hP := hm.valid
      have e1 : ∀ g, a = some g → φ (ofInterval ⟨start q, g.stop⟩) = ofInterval ⟨start q, g.stop⟩ := fun g h =>
        hφ.of_eq _ ((hm.gapAt' (g := g) (h ▸ ha)).elim (fun h => h _) fun h => hP _ h.2)
      have e2 : ∀ g, b = some g → φ (ofInterval ⟨g.start, stop q⟩) = ofInterval ⟨g.start, stop q⟩ := fun g h =>
        hφ.of_eq _ ((hm.gapAt' (g := g) (h ▸ hb)).elim (fun h => h _) fun h => hP _ h.1)
      have e3 : φ (ofInterval ⟨start q, stop q⟩) = ofInterval ⟨start q, stop q⟩ := hφ.of_eq _ (hP _ hq)
      cases a with
      | none =>
        cases b with
        | none => simp
        | some b => simp [e2 b rfl]
      | some a =>
        cases b with
        | none => simp [e1 a rfl]
        | some b => simp [e1 a rfl, e2 b rfl]; split_ifs <;> simp [e1 a rfl, e2 b rfl, e3]

theorem containsInterval_map (hm : Fine P K' m) (hI : ∀ i : Interval I, ¬ P i → isValid (ofInterval i : K) = false ∧ isValid (ofInterval i : K') = false)
    (q : Q) : (m.mapEntries φ ψ).containsInterval q = m.containsInterval q := by
  unfold containsInterval
  simp only [gapsUntrimmed_map hφ m hm hI, bind, Except.bind, pure, Except.pure]
  cases invalidIntervalPanic q with
  | error _ => rfl
  | ok _ =>
    simp only
    cases m.gapsUntrimmed q <;> simp [Except.map]

theorem insertUnchecked_map (k : K) (v : V) :
    (m.mapEntries φ ψ).insertUnchecked (φ k) (ψ v) = (m.insertUnchecked k v).mapEntries φ ψ := by
  simp only [insertUnchecked, mapEntries, BTree.insert_map (startsComp_map hφ k)]

/-- a result with an error value -/
def mapErr {α β : Type} (ψ : V → V') (f : α → β) : Except (OverlapError V) α → Except (OverlapError V') β
  | .ok a => .ok (f a)
  | .error e => .error ⟨ψ e.value⟩

theorem insertStrict_map (k : K) (v : V) : (m.mapEntries φ ψ).insertStrict (φ k) (ψ v) =
    (m.insertStrict k v).map (Prod.map (mapEntries φ ψ) (mapErr ψ id)) := by
  unfold insertStrict
  have h : (m.mapEntries φ ψ).overlaps (φ k) = m.overlaps k := by
    rw [overlaps_map hφ]
    simp only [overlaps, overlapping, invalidIntervalPanic_map hφ, hφ.start_eq, hφ.stop_eq]
  rw [h]
  simp only [invalidIntervalPanic_map hφ, insertUnchecked_map hφ, bind, Except.bind, pure, Except.pure]
  cases invalidIntervalPanic k with
  | error _ => rfl
  | ok _ => rcases m.overlaps k with _ | (_ | _) <;> rfl

theorem overlapsKey_map (k : K) : (m.mapEntries φ ψ).overlaps (φ k) = m.overlaps k := by
  rw [overlaps_map hφ]
  simp only [overlaps, overlapping, invalidIntervalPanic_map hφ, hφ.start_eq, hφ.stop_eq]

theorem removeLoopKey (k : K) (l : List (K × V)) : removeLoop (φ k) l = removeLoop k l := by
  induction l with
  | nil => rfl
  | cons e l ih => simp only [removeLoop, overlaps_map_left hφ, ih]

theorem cutLoopKey (k : K) (l : List (K × V)) : cutLoop (φ k) l = cutLoop k l := by
  induction l with
  | nil => rfl
  | cons e l ih => obtain ⟨a, b⟩ := e; simp only [cutLoop, overlaps_map_right hφ, cutInterval_map_right hφ, ih]

theorem removeOverlappingKey (k : K) : m.removeOverlapping (φ k) = m.removeOverlapping k := by
  simp only [removeOverlapping, invalidIntervalPanic_map hφ, hφ.start_eq, removeLoopKey hφ]

theorem cutKey (k : K) : m.cut (φ k) = m.cut k := by
  simp only [cut, invalidIntervalPanic_map hφ, hφ.start_eq, cutLoopKey hφ]

omit hφ in
theorem Fine.found {m : NoditMap K V} (h : Fine P K' m) (k : K) :
    (∀ i, P i) ∨ ((∀ i : Interval I, i.start ≤ i.stop → P i) ∧
      (∀ e, BTree.find (touchingStartComp (start k)) m.inner = some e → start e.1 ≤ start k) ∧
      (∀ e, BTree.find (overlappingComp (start k)) m.inner = some e → start e.1 ≤ start k) ∧
      (∀ e, BTree.find (touchingEndComp (stop k)) m.inner = some e → stop k ≤ stop e.1) ∧
      ∀ e, BTree.find (overlappingComp (stop k)) m.inner = some e → stop k ≤ stop e.1) := by
  refine h.imp_right fun ⟨_, _, h2, h3⟩ => ⟨h2, fun e he => ?_, fun e he => ?_, fun e he => ?_, fun e he => ?_⟩
  · obtain ⟨h4, h5⟩ := BTree.find_mem he
    rw [touchingStartComp_eq] at h5
    have := (LawfulPoint.up_some _ _ h5).1
    have := h3.1 e h4
    order
  · exact (overlappingComp_eq.1 (BTree.find_mem he).2).1
  · obtain ⟨h4, h5⟩ := BTree.find_mem he
    rw [touchingEndComp_eq] at h5
    have := (LawfulPoint.up_some _ _ h5).1
    have := h3.1 e h4
    order
  · exact (overlappingComp_eq.1 (BTree.find_mem he).2).2

theorem insertMergeWithComps_map (k : K) (v : V) {gs ge : NoditMap K V → V → Option K} {rs re : NoditMap K V → V → NoditMap K V}
    {gs' ge' : NoditMap K' V' → V' → Option K'} {rs' re' : NoditMap K' V' → V' → NoditMap K' V'}
    (h0 : (∀ i, P i) ∨ ((∀ i : Interval I, i.start ≤ i.stop → P i) ∧ (∀ e ∈ gs m v, start e ≤ start k) ∧ ∀ e ∈ ge m v, stop k ≤ stop e))
    (h1 : ∀ m v, gs' (mapEntries φ ψ m) (ψ v) = (gs m v).map φ) (h2 : ∀ m v, ge' (mapEntries φ ψ m) (ψ v) = (ge m v).map φ)
    (h3 : ∀ m v, rs' (mapEntries φ ψ m) (ψ v) = mapEntries φ ψ (rs m v)) (h4 : ∀ m v, re' (mapEntries φ ψ m) (ψ v) = mapEntries φ ψ (re m v)) :
    (m.mapEntries φ ψ).insertMergeWithComps (φ k) (ψ v) gs' ge' rs' re' =
      (m.insertMergeWithComps k v gs ge rs re).map (Prod.map (mapEntries φ ψ) φ) := by
  unfold insertMergeWithComps
  simp only [invalidIntervalPanic_map hφ, removeOverlappingKey hφ, removeOverlapping_map hφ, bind, Except.bind, pure, Except.pure, h1, h2]
  by_cases hk : start k ≤ stop k
  · rw [invalidIntervalPanic_ok hk]
    simp only
    cases m.removeOverlapping k with
    | error _ => rfl
    | ok r =>
      simp only [Except.map, Prod.map_fst, h3, h4]
      have hp : ∀ s e : I, ((∃ a ∈ gs m v, start a = s) ∨ start k = s) → ((∃ a ∈ ge m v, stop a = e) ∨ stop k = e) → P ⟨s, e⟩ := by
        intro s e hs he
        rcases h0 with h0 | ⟨h0, h0s, h0e⟩
        · exact h0 _
        · refine h0 _ ?_
          have : s ≤ start k := by
            rcases hs with ⟨a, ha, rfl⟩ | rfl
            · exact h0s a ha
            · exact le_refl _
          have : stop k ≤ e := by
            rcases he with ⟨a, ha, rfl⟩ | rfl
            · exact h0e a ha
            · exact le_refl _
          show s ≤ e
          order
      cases hgs : gs m v with
      | none =>
        cases hge : ge m v with
        | none => simp only [Option.map_none, insertUnchecked_map hφ, Prod.map_apply]
        | some b =>
          have := hφ.of_eq _ (hp (start k) (stop b) (Or.inr rfl) (Or.inl ⟨b, hge, rfl⟩))
          simp only [Option.map_none, Option.map_some, hφ.start_eq, hφ.stop_eq, ← this, insertUnchecked_map hφ, Prod.map_apply]
      | some a =>
        cases hge : ge m v with
        | none =>
          have := hφ.of_eq _ (hp (start a) (stop k) (Or.inl ⟨a, hgs, rfl⟩) (Or.inr rfl))
          simp only [Option.map_none, Option.map_some, hφ.start_eq, hφ.stop_eq, ← this, insertUnchecked_map hφ, Prod.map_apply]
        | some b =>
          have := hφ.of_eq _ (hp (start a) (stop b) (Or.inl ⟨a, hgs, rfl⟩) (Or.inl ⟨b, hge, rfl⟩))
          simp only [Option.map_some, hφ.start_eq, hφ.stop_eq, ← this, insertUnchecked_map hφ, Prod.map_apply]
  · rw [invalidIntervalPanic_err hk]; rfl

theorem insertMergeTouching_map (hm : Fine P K' m) (k : K) (v : V) : (m.mapEntries φ ψ).insertMergeTouching (φ k) (ψ v) =
    (m.insertMergeTouching k v).map (Prod.map (mapEntries φ ψ) (mapErr ψ φ)) := by
  unfold insertMergeTouching
  rw [overlapsKey_map hφ]
  simp only [invalidIntervalPanic_map hφ, bind, Except.bind, pure, Except.pure, hφ.start_eq, hφ.stop_eq]
  rw [insertMergeWithComps_map hφ m k v (ψ := ψ)
    (gs := fun m _ => (BTree.find (touchingStartComp (start k)) m.inner).map Prod.fst)
    (ge := fun m _ => (BTree.find (touchingEndComp (stop k)) m.inner).map Prod.fst)
    (rs := fun m _ => ⟨BTree.remove (touchingStartComp (start k)) m.inner⟩)
    (re := fun m _ => ⟨BTree.remove (touchingEndComp (stop k)) m.inner⟩)]
  · cases invalidIntervalPanic k with
    | error _ => rfl
    | ok _ =>
      rcases m.overlaps k with _ | (_ | _)
      · rfl
      · simp only [Bool.false_eq_true, if_false]
        cases insertMergeWithComps m k v _ _ _ _ <;> rfl
      · rfl
  · refine (hm.found k).imp_right fun h => ⟨h.1, ?_, ?_⟩
    · intro e he
      obtain ⟨d, hd, rfl⟩ := Option.map_eq_some_iff.1 he
      exact h.2.1 d hd
    · intro e he
      obtain ⟨d, hd, rfl⟩ := Option.map_eq_some_iff.1 he
      exact h.2.2.2.1 d hd
  · intro m v; simp only [mapEntries, BTree.find_map (touchingStartComp_map hφ _), Option.map_map]; rfl
  · intro m v; simp only [mapEntries, BTree.find_map (touchingEndComp_map hφ _), Option.map_map]; rfl
  · intro m v; simp only [mapEntries, BTree.remove_map (touchingStartComp_map hφ _)]
  · intro m v; simp only [mapEntries, BTree.remove_map (touchingEndComp_map hφ _)]

theorem insertMergeTouchingIfValuesEqual_map (hm : Fine P K' m) [BEq V] [BEq V'] (hψ : ∀ a b : V, (ψ a == ψ b) = (a == b)) (k : K) (v : V) :
    (m.mapEntries φ ψ).insertMergeTouchingIfValuesEqual (φ k) (ψ v) =
      (m.insertMergeTouchingIfValuesEqual k v).map (Prod.map (mapEntries φ ψ) (mapErr ψ φ)) := by
  have g1 : ∀ (m : NoditMap K V) (v : V), getStartEq (φ k) (mapEntries φ ψ m) (ψ v) = (getStartEq k m v).map φ := by
    intro m v
    simp only [getStartEq, mapEntries, hφ.start_eq, BTree.find_map (touchingStartComp_map hφ _)]
    cases BTree.find (touchingStartComp (start k)) m.inner with
    | none => rfl
    | some e => simp only [Option.map_some, Option.filter_some, Prod.map_snd, hψ]; split_ifs <;> rfl
  have g2 : ∀ (m : NoditMap K V) (v : V), getEndEq (φ k) (mapEntries φ ψ m) (ψ v) = (getEndEq k m v).map φ := by
    intro m v
    simp only [getEndEq, mapEntries, hφ.stop_eq, BTree.find_map (touchingEndComp_map hφ _)]
    cases BTree.find (touchingEndComp (stop k)) m.inner with
    | none => rfl
    | some e => simp only [Option.map_some, Option.filter_some, Prod.map_snd, hψ]; split_ifs <;> rfl
  unfold insertMergeTouchingIfValuesEqual
  rw [overlapsKey_map hφ]
  simp only [invalidIntervalPanic_map hφ, bind, Except.bind, pure, Except.pure, hφ.start_eq, hφ.stop_eq]
  rw [insertMergeWithComps_map hφ m k v (ψ := ψ) (gs := getStartEq k) (ge := getEndEq k)
    (rs := fun m v => if (getStartEq k m v).isSome then ⟨BTree.remove (touchingStartComp (start k)) m.inner⟩ else m)
    (re := fun m v => if (getEndEq k m v).isSome then ⟨BTree.remove (touchingEndComp (stop k)) m.inner⟩ else m) ((hm.found k).imp_right fun h => ⟨h.1,
      fun e he => by
        unfold getStartEq at he
        obtain ⟨d, hd, rfl⟩ := Option.map_eq_some_iff.1 he
        exact h.2.1 d (Option.filter_eq_some_iff.1 hd).1,
      fun e he => by
        unfold getEndEq at he
        obtain ⟨d, hd, rfl⟩ := Option.map_eq_some_iff.1 he
        exact h.2.2.2.1 d (Option.filter_eq_some_iff.1 hd).1⟩) g1 g2]
  · cases invalidIntervalPanic k with
    | error _ => rfl
    | ok _ =>
      rcases m.overlaps k with _ | (_ | _)
      · rfl
      · simp only [Bool.false_eq_true, if_false]
        cases insertMergeWithComps m k v _ _ _ _ <;> rfl
      · rfl
  · intro m v
    rw [g1, Option.isSome_map]
    split_ifs
    · simp only [mapEntries, BTree.remove_map (touchingStartComp_map hφ _)]
    · rfl
  · intro m v
    rw [g2, Option.isSome_map]
    split_ifs
    · simp only [mapEntries, BTree.remove_map (touchingEndComp_map hφ _)]
    · rfl

theorem insertMergeOverlapping_map (hm : Fine P K' m) (k : K) (v : V) : (m.mapEntries φ ψ).insertMergeOverlapping (φ k) (ψ v) =
    (m.insertMergeOverlapping k v).map (Prod.map (mapEntries φ ψ) φ) := by
  unfold insertMergeOverlapping
  simp only [invalidIntervalPanic_map hφ, bind, Except.bind, pure, Except.pure, hφ.start_eq, hφ.stop_eq]
  rw [insertMergeWithComps_map hφ m k v (ψ := ψ)
    (gs := fun m _ => (BTree.find (overlappingComp (start k)) m.inner).map Prod.fst)
    (ge := fun m _ => (BTree.find (overlappingComp (stop k)) m.inner).map Prod.fst)
    (rs := fun m _ => m) (re := fun m _ => m)]
  · cases invalidIntervalPanic k <;> rfl
  · refine (hm.found k).imp_right fun h => ⟨h.1, ?_, ?_⟩
    · intro e he
      obtain ⟨d, hd, rfl⟩ := Option.map_eq_some_iff.1 he
      exact h.2.2.1 d hd
    · intro e he
      obtain ⟨d, hd, rfl⟩ := Option.map_eq_some_iff.1 he
      exact h.2.2.2.2 d hd
  · intro m v; simp only [mapEntries, BTree.find_map (overlappingComp_map hφ _), Option.map_map]; rfl
  · intro m v; simp only [mapEntries, BTree.find_map (overlappingComp_map hφ _), Option.map_map]; rfl
  · intro m v; rfl
  · intro m v; rfl

theorem insertMergeTouchingOrOverlapping_map (hm : Fine P K' m) (k : K) (v : V) : (m.mapEntries φ ψ).insertMergeTouchingOrOverlapping (φ k) (ψ v) =
    (m.insertMergeTouchingOrOverlapping k v).map (Prod.map (mapEntries φ ψ) φ) := by
  unfold insertMergeTouchingOrOverlapping
  simp only [invalidIntervalPanic_map hφ, bind, Except.bind, pure, Except.pure, hφ.start_eq, hφ.stop_eq]
  rw [insertMergeWithComps_map hφ m k v (ψ := ψ)
    (gs := fun m _ => ((BTree.find (touchingStartComp (start k)) m.inner).map Prod.fst).or
      ((BTree.find (overlappingComp (start k)) m.inner).map Prod.fst))
    (ge := fun m _ => ((BTree.find (touchingEndComp (stop k)) m.inner).map Prod.fst).or
      ((BTree.find (overlappingComp (stop k)) m.inner).map Prod.fst))
    (rs := fun m _ => ⟨BTree.remove (touchingStartComp (start k)) m.inner⟩)
    (re := fun m _ => ⟨BTree.remove (touchingEndComp (stop k)) m.inner⟩)]
  · cases invalidIntervalPanic k <;> rfl
  · refine (hm.found k).imp_right fun h => ⟨h.1, ?_, ?_⟩
    · intro e he
      rcases Option.or_eq_some_iff.1 he with he | ⟨-, he⟩
      · obtain ⟨d, hd, rfl⟩ := Option.map_eq_some_iff.1 he
        exact h.2.1 d hd
      · obtain ⟨d, hd, rfl⟩ := Option.map_eq_some_iff.1 he
        exact h.2.2.1 d hd
    · intro e he
      rcases Option.or_eq_some_iff.1 he with he | ⟨-, he⟩
      · obtain ⟨d, hd, rfl⟩ := Option.map_eq_some_iff.1 he
        exact h.2.2.2.1 d hd
      · obtain ⟨d, hd, rfl⟩ := Option.map_eq_some_iff.1 he
        exact h.2.2.2.2 d hd
  · intro m v
    simp only [mapEntries, BTree.find_map (overlappingComp_map hφ _), BTree.find_map (touchingStartComp_map hφ _), Option.map_map]
    cases BTree.find (touchingStartComp (start k)) m.inner <;> cases BTree.find (overlappingComp (start k)) m.inner <;> rfl
  · intro m v
    simp only [mapEntries, BTree.find_map (overlappingComp_map hφ _), BTree.find_map (touchingEndComp_map hφ _), Option.map_map]
    cases BTree.find (touchingEndComp (stop k)) m.inner <;> cases BTree.find (overlappingComp (stop k)) m.inner <;> rfl
  · intro m v; simp only [mapEntries, BTree.remove_map (touchingStartComp_map hφ _)]
  · intro m v; simp only [mapEntries, BTree.remove_map (touchingEndComp_map hφ _)]

theorem insertOverwrite_map (hP : ∀ i : Interval I, i.start ≤ i.stop → P i) (k : K) (v : V) : (m.mapEntries φ ψ).insertOverwrite (φ k) (ψ v) =
    (m.insertOverwrite k v).map (Prod.map (mapEntries φ ψ) (List.map (Prod.map φ ψ))) := by
  unfold insertOverwrite
  simp only [invalidIntervalPanic_map hφ, cutKey hφ, cut_map hφ m hP, bind, Except.bind, pure, Except.pure]
  cases invalidIntervalPanic k with
  | error _ => rfl
  | ok _ =>
    simp only
    cases m.cut k with
    | error _ => rfl
    | ok r => simp only [Except.map, Prod.map_fst, Prod.map_snd, insertUnchecked_map hφ, Prod.map_apply]

theorem iterMut_map {f : K → V → V} {f' : K' → V' → V'} (hf : ∀ k v, f' (φ k) (ψ v) = ψ (f k v)) :
    (m.mapEntries φ ψ).iterMut f' = (m.iterMut f).mapEntries φ ψ := by
  simp [iterMut, mapEntries, hf]
end
end NoditMap

namespace Spec
/-- the same call with intervals and values replaced; a closure that changes values must do to the new values what the old
one does to the old values -/
inductive Op.Corresponds (φ : K → K') (ψ : V → V') : Op I K V → Op I K' V' → Prop
  | insertStrict (k v) : Corresponds φ ψ (.insertStrict k v) (.insertStrict (φ k) (ψ v))
  | insertMergeTouching (k v) : Corresponds φ ψ (.insertMergeTouching k v) (.insertMergeTouching (φ k) (ψ v))
  | insertMergeTouchingIfValuesEqual (k v) :
    Corresponds φ ψ (.insertMergeTouchingIfValuesEqual k v) (.insertMergeTouchingIfValuesEqual (φ k) (ψ v))
  | insertMergeOverlapping (k v) : Corresponds φ ψ (.insertMergeOverlapping k v) (.insertMergeOverlapping (φ k) (ψ v))
  | insertMergeTouchingOrOverlapping (k v) :
    Corresponds φ ψ (.insertMergeTouchingOrOverlapping k v) (.insertMergeTouchingOrOverlapping (φ k) (ψ v))
  | insertOverwrite (k v) : Corresponds φ ψ (.insertOverwrite k v) (.insertOverwrite (φ k) (ψ v))
  | cut (q) : Corresponds φ ψ (.cut q) (.cut q)
  | removeOverlapping (q) : Corresponds φ ψ (.removeOverlapping q) (.removeOverlapping q)
  | overlapping (q) : Corresponds φ ψ (.overlapping q) (.overlapping q)
  | overlaps (q) : Corresponds φ ψ (.overlaps q) (.overlaps q)
  | gapsUntrimmed (q) : Corresponds φ ψ (.gapsUntrimmed q) (.gapsUntrimmed q)
  | gapsTrimmed (q) : Corresponds φ ψ (.gapsTrimmed q) (.gapsTrimmed q)
  | containsInterval (q) : Corresponds φ ψ (.containsInterval q) (.containsInterval q)
  | overlappingMut (q) {f f'} (h : ∀ k v, f' (φ k) (ψ v) = ψ (f k v)) : Corresponds φ ψ (.overlappingMut q f) (.overlappingMut q f')
  | getAtPoint (p) : Corresponds φ ψ (.getAtPoint p) (.getAtPoint p)
  | getKeyValueAtPoint (p) : Corresponds φ ψ (.getKeyValueAtPoint p) (.getKeyValueAtPoint p)
  | containsPoint (p) : Corresponds φ ψ (.containsPoint p) (.containsPoint p)
  | getAtPointMut (p) {f f'} (h : ∀ v, f' (ψ v) = ψ (f v)) : Corresponds φ ψ (.getAtPointMut p f) (.getAtPointMut p f')
  | iterMut {f f'} (h : ∀ k v, f' (φ k) (ψ v) = ψ (f k v)) : Corresponds φ ψ (.iterMut f) (.iterMut f')
  | iter : Corresponds φ ψ .iter .iter
  | len : Corresponds φ ψ .len .len
  | isEmpty : Corresponds φ ψ .isEmpty .isEmpty
  | firstKeyValue : Corresponds φ ψ .firstKeyValue .firstKeyValue
  | lastKeyValue : Corresponds φ ψ .lastKeyValue .lastKeyValue

/-- the call asks for gaps -/
def Op.asksGaps : Op I K V → Bool
  | .gapsUntrimmed _ | .gapsTrimmed _ | .containsInterval _ => true
  | _ => false

/-- the same output with intervals and values replaced -/
def Out.map (φ : K → K') (ψ : V → V') : Out K V → Out K' V'
  | .unit => .unit
  | .bool b => .bool b
  | .nat n => .nat n
  | .entries l => .entries (l.map (Prod.map φ ψ))
  | .keys l => .keys (l.map φ)
  | .optValue v => .optValue (v.map ψ)
  | .optEntry e => .optEntry (e.map (Prod.map φ ψ))
  | .lookup (.ok e) => .lookup (.ok (Prod.map φ ψ e))
  | .lookup (.error g) => .lookup (.error (φ g))
  | .strict (.ok u) => .strict (.ok u)
  | .strict (.error v) => .strict (.error (ψ v))
  | .merge (.ok k) => .merge (.ok (φ k))
  | .merge (.error v) => .merge (.error (ψ v))
  | .key k => .key (φ k)
end Spec

namespace NoditMap
variable [BEq V] [BEq V']

theorem step_map (hφ : KeepsInterval P φ) {m : NoditMap K V} (hm : Fine P K' m) {op : Op I K V} {op' : Op I K' V'}
    (hI : op.asksGaps = false ∨ ∀ i : Interval I, ¬ P i → isValid (ofInterval i : K) = false ∧ isValid (ofInterval i : K') = false)
    (hψ : (∀ k v, op ≠ .insertMergeTouchingIfValuesEqual k v) ∨ ∀ a b : V, (ψ a == ψ b) = (a == b)) (h : op.Corresponds φ ψ op') : (m.mapEntries φ ψ).step op' = (m.step op).map (Prod.map (mapEntries φ ψ) (Out.map φ ψ)) := by
  cases h with
  | insertStrict k v =>
    simp only [step, insertStrict_map hφ, bind, Except.bind, pure, Except.pure]
    rcases m.insertStrict k v with _ | ⟨m, _ | _⟩ <;> rfl
  | insertMergeTouching k v =>
    simp only [step, insertMergeTouching_map hφ m hm, bind, Except.bind, pure, Except.pure]
    rcases m.insertMergeTouching k v with _ | ⟨m, _ | _⟩ <;> rfl
  | insertMergeTouchingIfValuesEqual k v =>
    have hψ := hψ.resolve_left (fun h => h k v rfl)
    simp only [step, insertMergeTouchingIfValuesEqual_map hφ m hm hψ, bind, Except.bind, pure, Except.pure]
    rcases m.insertMergeTouchingIfValuesEqual k v with _ | ⟨m, _ | _⟩ <;> rfl
  | insertMergeOverlapping k v =>
    simp only [step, insertMergeOverlapping_map hφ m hm, bind, Except.bind, pure, Except.pure]
    cases m.insertMergeOverlapping k v <;> rfl
  | insertMergeTouchingOrOverlapping k v =>
    simp only [step, insertMergeTouchingOrOverlapping_map hφ m hm, bind, Except.bind, pure, Except.pure]
    cases m.insertMergeTouchingOrOverlapping k v <;> rfl
  | insertOverwrite k v =>
    simp only [step, insertOverwrite_map hφ m hm.valid, bind, Except.bind, pure, Except.pure]
    cases m.insertOverwrite k v <;> rfl
  | cut q => simp only [step, cut_map hφ m hm.valid, bind, Except.bind, pure, Except.pure]; cases m.cut q <;> rfl
  | removeOverlapping q =>
    simp only [step, removeOverlapping_map hφ, bind, Except.bind, pure, Except.pure]; cases m.removeOverlapping q <;> rfl
  | overlapping q => simp only [step, overlapping_map hφ, bind, Except.bind, pure, Except.pure]; cases m.overlapping q <;> rfl
  | overlaps q => simp only [step, overlaps_map hφ, bind, Except.bind, pure, Except.pure]; cases m.overlaps q <;> rfl
  | gapsUntrimmed q => simp only [step, gapsUntrimmed_map hφ m hm (hI.resolve_left (by simp [Op.asksGaps])), bind, Except.bind, pure, Except.pure]; cases m.gapsUntrimmed q <;> rfl
  | gapsTrimmed q => simp only [step, gapsTrimmed_map hφ m hm (hI.resolve_left (by simp [Op.asksGaps])), bind, Except.bind, pure, Except.pure]; cases m.gapsTrimmed q <;> rfl
  | containsInterval q =>
    simp only [step, containsInterval_map hφ m hm (hI.resolve_left (by simp [Op.asksGaps])), bind, Except.bind, pure, Except.pure]; cases m.containsInterval q <;> rfl
  | overlappingMut q h =>
    simp only [step, overlappingMut_map hφ m h, bind, Except.bind, pure, Except.pure]; cases m.overlappingMut q _ <;> rfl
  | getAtPoint p => simp only [step, getAtPoint_map hφ, bind, Except.bind, pure, Except.pure]; cases m.getAtPoint p <;> rfl
  | getKeyValueAtPoint p =>
    simp only [step, getKeyValueAtPoint_map hφ m hm, bind, Except.bind, pure, Except.pure]
    rcases m.getKeyValueAtPoint p with _ | (_ | _) <;> rfl
  | containsPoint p => simp only [step, containsPoint_map' hφ, bind, Except.bind, pure, Except.pure]; cases m.containsPoint p <;> rfl
  | getAtPointMut p h => simp only [step, getAtPointMut_map hφ m h]; rfl
  | iterMut h => simp only [step, iterMut_map hφ m h]; rfl
  | iter => rfl
  | len => simp [step, pure, Except.pure, Except.map, len, mapEntries, Out.map]
  | isEmpty => simp [step, pure, Except.pure, Except.map, isEmpty, mapEntries, Out.map]
  | firstKeyValue => simp [step, pure, Except.pure, Except.map, firstKeyValue, mapEntries, Out.map]
  | lastKeyValue => simp [step, pure, Except.pure, Except.map, lastKeyValue, mapEntries, Out.map]

omit [BEq V] [BEq V'] in
theorem chain_map (hφ : KeepsInterval P φ) {l : List (K × V)} : Chain (l.map (Prod.map φ ψ)) ↔ Chain l := by
  have e : (∀ e ∈ l.map (Prod.map φ ψ), start e.1 ≤ stop e.1) ↔ ∀ e ∈ l, start e.1 ≤ stop e.1 := by
    rw [List.forall_mem_map]; simp only [Prod.map_fst, hφ.start_eq, hφ.stop_eq]
  unfold Chain
  rw [e, List.pairwise_map]
  simp only [Prod.map_fst, hφ.start_eq, hφ.stop_eq]

theorem Fine.step (hφ : KeepsInterval P φ) {m m' : NoditMap K V} (hm : Fine P K' m) {op : Op I K V} {op' : Op I K' V'}
    (hI : op.asksGaps = false ∨ ∀ i : Interval I, ¬ P i → isValid (ofInterval i : K) = false ∧ isValid (ofInterval i : K') = false)
    (hψ : (∀ k v, op ≠ .insertMergeTouchingIfValuesEqual k v) ∨ ∀ a b : V, (ψ a == ψ b) = (a == b)) (h : op.Corresponds φ ψ op')
    {o : Out K V} (hs : m.step op = .ok (m', o)) : Fine P K' m' := by
  have hm0 := hm
  refine hm.imp_right fun ⟨h1, h2, h3, h4⟩ => ⟨h1, h2, h3, ?_⟩
  have := step_map hφ hm0 hI hψ h
  rw [hs] at this
  have hw := C01_step (wf_iff_chain.2 ((chain_map hφ (ψ := ψ)).2 h4) : WF (m.mapEntries φ ψ).iter) this
  exact (chain_map hφ (ψ := ψ)).1 (wf_iff_chain.1 hw)

theorem run_map (hφ : KeepsInterval P φ) {ops : List (Op I K V)} {ops' : List (Op I K' V')}
    (hI : (∀ op ∈ ops, op.asksGaps = false) ∨
      ∀ i : Interval I, ¬ P i → isValid (ofInterval i : K) = false ∧ isValid (ofInterval i : K') = false)
    (hψ : (∀ k v, Op.insertMergeTouchingIfValuesEqual k v ∉ ops) ∨ ∀ a b : V, (ψ a == ψ b) = (a == b))
    (h : List.Forall₂ (Op.Corresponds φ ψ) ops ops') {m : NoditMap K V} (hm : Fine P K' m) :
    (m.mapEntries φ ψ).run ops' = ((m.run ops).1.mapEntries φ ψ, (m.run ops).2.map (Except.map (Out.map φ ψ))) := by
  induction h generalizing m with
  | nil => rfl
  | @cons op op' ops ops' h1 h2 ih =>
    have ih := fun {m} => @ih (hI.imp_left fun h o ho => h o (List.mem_cons_of_mem _ ho))
      (hψ.imp_left fun h k v hm => h k v (List.mem_cons_of_mem _ hm)) m
    have hI1 := hI.imp_left fun h => h op List.mem_cons_self
    have hψ1 : (∀ k v, op ≠ .insertMergeTouchingIfValuesEqual k v) ∨ ∀ a b : V, (ψ a == ψ b) = (a == b) :=
      hψ.imp_left fun h k v hm => h k v (hm ▸ List.mem_cons_self)
    simp only [run, step_map hφ hm hI1 hψ1 h1]
    cases hs : m.step op with
    | error _ => simp only [Except.map, ih hm, List.map_cons]
    | ok r =>
      have := ih (Fine.step hφ hm hI1 hψ1 h1 hs)
      simp only [Except.map, Prod.map, this, List.map_cons]
end NoditMap

/-! ## `NoditSet` -/
namespace NoditSet

/-- the set with intervals replaced -/
def mapEntries (φ : K → K') (s : NoditSet K) : NoditSet K' := ⟨s.inner.mapEntries φ id⟩

theorem iter_map (s : NoditSet K) : (s.mapEntries φ).iter = s.iter.map φ := by
  simp [iter, NoditMap.iter, mapEntries, NoditMap.mapEntries]

end NoditSet

namespace Spec
/-- the same call with intervals replaced -/
def SetOp.map (φ : K → K') : SetOp I K → SetOp I K'
  | .insertStrict k => .insertStrict (φ k)
  | .insertMergeTouching k => .insertMergeTouching (φ k)
  | .insertMergeOverlapping k => .insertMergeOverlapping (φ k)
  | .insertMergeTouchingOrOverlapping k => .insertMergeTouchingOrOverlapping (φ k)
  | .insertOverwrite k => .insertOverwrite (φ k)
  | .cut q => .cut q
  | .removeOverlapping q => .removeOverlapping q
end Spec

namespace NoditSet

theorem step_map (hφ : KeepsInterval P φ) {s : NoditSet K} (hm : NoditMap.Fine P K' s.inner) (op : SetOp I K) :
    (s.mapEntries φ).step (op.map φ) = (s.step op).map (mapEntries φ) := by
  obtain ⟨m⟩ := s
  cases op with
  | insertStrict k =>
    simp only [SetOp.map, step, insertStrict, mapEntries, bind, Except.bind, pure, Except.pure]
    rw [NoditMap.insertStrict_map hφ m k (ψ := id) ()]; cases m.insertStrict k () <;> rfl
  | insertMergeTouching k =>
    simp only [SetOp.map, step, insertMergeTouching, mapEntries, bind, Except.bind, pure, Except.pure]
    rw [NoditMap.insertMergeTouching_map hφ m hm k (ψ := id) ()]; cases m.insertMergeTouching k () <;> rfl
  | insertMergeOverlapping k =>
    simp only [SetOp.map, step, insertMergeOverlapping, mapEntries, bind, Except.bind, pure, Except.pure]
    rw [NoditMap.insertMergeOverlapping_map hφ m hm k (ψ := id) ()]; cases m.insertMergeOverlapping k () <;> rfl
  | insertMergeTouchingOrOverlapping k =>
    simp only [SetOp.map, step, insertMergeTouchingOrOverlapping, mapEntries, bind, Except.bind, pure, Except.pure]
    rw [NoditMap.insertMergeTouchingOrOverlapping_map hφ m hm k (ψ := id) ()]; cases m.insertMergeTouchingOrOverlapping k () <;> rfl
  | insertOverwrite k =>
    simp only [SetOp.map, step, insertOverwrite, mapEntries, bind, Except.bind, pure, Except.pure]
    rw [NoditMap.insertOverwrite_map hφ m hm.valid k (ψ := id) ()]; cases m.insertOverwrite k () <;> rfl
  | cut q =>
    simp only [SetOp.map, step, cut, mapEntries, bind, Except.bind, pure, Except.pure]
    rw [NoditMap.cut_map hφ m hm.valid]; cases m.cut q <;> rfl
  | removeOverlapping q =>
    simp only [SetOp.map, step, removeOverlapping, mapEntries, bind, Except.bind, pure, Except.pure]
    rw [NoditMap.removeOverlapping_map hφ m]; cases m.removeOverlapping q <;> rfl

/-- the call on the inner map -/
def toOp : SetOp I K → Op I K Unit
  | .insertStrict k => .insertStrict k ()
  | .insertMergeTouching k => .insertMergeTouching k ()
  | .insertMergeOverlapping k => .insertMergeOverlapping k ()
  | .insertMergeTouchingOrOverlapping k => .insertMergeTouchingOrOverlapping k ()
  | .insertOverwrite k => .insertOverwrite k ()
  | .cut q => .cut q
  | .removeOverlapping q => .removeOverlapping q

theorem fine_step (hφ : KeepsInterval P φ) {s s' : NoditSet K} (hm : NoditMap.Fine P K' s.inner) {op : SetOp I K} (h : s.step op = .ok s') :
    NoditMap.Fine P K' s'.inner := by
  have hc : (toOp op).Corresponds φ (id : Unit → Unit) (toOp (op.map φ)) := by cases op <;> constructor
  have key : ∃ o, s.inner.step (toOp op) = .ok (s'.inner, o) := by
    cases op with
    | insertStrict k =>
      simp only [step, toOp, NoditMap.step, insertStrict, bind, Except.bind, pure, Except.pure] at h ⊢
      cases hr : s.inner.insertStrict k () <;> simp only [hr] at h ⊢
      · cases h
      · cases h; exact ⟨_, rfl⟩
    | insertMergeTouching k =>
      simp only [step, toOp, NoditMap.step, insertMergeTouching, bind, Except.bind, pure, Except.pure] at h ⊢
      cases hr : s.inner.insertMergeTouching k () <;> simp only [hr] at h ⊢
      · cases h
      · cases h; exact ⟨_, rfl⟩
    | insertMergeOverlapping k =>
      simp only [step, toOp, NoditMap.step, insertMergeOverlapping, bind, Except.bind, pure, Except.pure] at h ⊢
      cases hr : s.inner.insertMergeOverlapping k () <;> simp only [hr] at h ⊢
      · cases h
      · cases h; exact ⟨_, rfl⟩
    | insertMergeTouchingOrOverlapping k =>
      simp only [step, toOp, NoditMap.step, insertMergeTouchingOrOverlapping, bind, Except.bind, pure, Except.pure] at h ⊢
      cases hr : s.inner.insertMergeTouchingOrOverlapping k () <;> simp only [hr] at h ⊢
      · cases h
      · cases h; exact ⟨_, rfl⟩
    | insertOverwrite k =>
      simp only [step, toOp, NoditMap.step, insertOverwrite, bind, Except.bind, pure, Except.pure] at h ⊢
      cases hr : s.inner.insertOverwrite k () <;> simp only [hr] at h ⊢
      · cases h
      · cases h; exact ⟨_, rfl⟩
    | cut q =>
      simp only [step, toOp, NoditMap.step, cut, bind, Except.bind, pure, Except.pure] at h ⊢
      cases hr : s.inner.cut q <;> simp only [hr] at h ⊢
      · cases h
      · cases h; exact ⟨_, rfl⟩
    | removeOverlapping q =>
      simp only [step, toOp, NoditMap.step, removeOverlapping, bind, Except.bind, pure, Except.pure] at h ⊢
      cases hr : s.inner.removeOverlapping q <;> simp only [hr] at h ⊢
      · cases h
      · cases h; exact ⟨_, rfl⟩
  obtain ⟨o, ho⟩ := key
  exact NoditMap.Fine.step hφ hm (Or.inl (by cases op <;> rfl)) (Or.inr fun _ _ => rfl) hc ho

theorem run_map (hφ : KeepsInterval P φ) (ops : List (SetOp I K)) {s : NoditSet K} (hm : NoditMap.Fine P K' s.inner) :
    (s.mapEntries φ).run (ops.map (SetOp.map φ)) = (s.run ops).mapEntries φ := by
  induction ops generalizing s with
  | nil => rfl
  | cons op ops ih =>
    simp only [List.map_cons, run, step_map hφ hm]
    cases hs : s.step op with
    | error _ => simp only [Except.map, ih hm]
    | ok s' => simp only [Except.map, ih (fine_step hφ hm hs)]

theorem fine_run (hφ : KeepsInterval P φ) (ops : List (SetOp I K)) {s : NoditSet K} (hm : NoditMap.Fine P K' s.inner) :
    NoditMap.Fine P K' (s.run ops).inner := by
  induction ops generalizing s with
  | nil => exact hm
  | cons op ops ih =>
    simp only [run]
    cases hs : s.step op with
    | error _ => exact ih hm
    | ok s' => exact ih (fine_step hφ hm hs)
end NoditSet

/-! ## `ZosditMap` -/
namespace ZosditMap

/-- the map with intervals and values replaced -/
def mapEntries (φ : K → K') (ψ : V → V') (m : ZosditMap K V) : ZosditMap K' V' :=
  ⟨m.len, m.inner.map (Prod.map φ (List.map ψ))⟩

theorem flatten_map (l : List (K × List V)) : flatten (l.map (Prod.map φ (List.map ψ))) = (flatten l).map (Prod.map φ ψ) := by
  simp [flatten, List.flatMap_map, List.map_flatMap, Function.comp_def]

theorem movePrev_map (c : BTree.Cursor K V) : (BTree.Cursor.mapC φ ψ c).movePrev = BTree.Cursor.mapC φ ψ c.movePrev := by
  obtain ⟨b, a⟩ := c
  simp only [BTree.Cursor.mapC, BTree.Cursor.movePrev, List.getLast?_map]
  cases b.getLast? <;> simp [List.map_dropLast]

theorem moveNext_map (c : BTree.Cursor K V) : (BTree.Cursor.mapC φ ψ c).moveNext = BTree.Cursor.mapC φ ψ c.moveNext := by
  obtain ⟨b, a⟩ := c
  cases a <;> simp [BTree.Cursor.mapC, BTree.Cursor.moveNext]

section
variable (hφ : KeepsInterval P φ) (m : ZosditMap K V)
include hφ

theorem lastAtPointCursor_map (p : I) : (m.mapEntries φ ψ).lastAtPointCursor p = BTree.Cursor.mapC φ (List.map ψ) (m.lastAtPointCursor p) := by
  simp only [lastAtPointCursor, mapEntries, BTree.lowerBound_map (exclusiveComp_map hφ _ _), key_map, Option.isNone_map]
  split_ifs
  · exact movePrev_map _
  · rfl

theorem getLastValueAtPoint_map (p : I) : (m.mapEntries φ ψ).getLastValueAtPoint p = (m.getLastValueAtPoint p).map ψ := by
  simp only [getLastValueAtPoint, lastAtPointCursor_map hφ, BTree.Cursor.keyValue, BTree.Cursor.mapC, List.head?_map]
  cases (m.lastAtPointCursor p).after.head? with
  | none => rfl
  | some e => simp only [Option.map_some, Option.filter_some, Prod.map_fst, containsPoint_map hφ]; split_ifs <;> simp

theorem removeLastValueAtPoint_map (p : I) : (m.mapEntries φ ψ).removeLastValueAtPoint p =
    (m.removeLastValueAtPoint p).map (Prod.map (mapEntries φ ψ) (Option.map ψ)) := by
  simp only [removeLastValueAtPoint, lastAtPointCursor_map hφ, BTree.Cursor.mapC]
  cases (m.lastAtPointCursor p).after with
  | nil => rfl
  | cons e l =>
    obtain ⟨k, vs⟩ := e
    simp only [List.map_cons, Prod.map_apply, containsPoint_map hφ]
    cases InclusiveInterval.containsPoint k p
    · rfl
    · simp only [if_true, List.getLast?_map, bind, Except.bind, pure, Except.pure]
      cases vs.getLast? with
      | none => rfl
      | some v =>
        simp only [Option.map_some, unwrap, Except.map, ← List.map_dropLast, List.isEmpty_map]
        split_ifs <;> simp [mapEntries, BTree.Cursor.removeCurrent, BTree.Cursor.entries]

theorem insertComp_map (a k : K) : insertComp (φ a) (φ k) = insertComp a k := by
  simp only [insertComp, exclusiveComp_map hφ, hφ.start_eq, hφ.stop_eq]

omit hφ in
theorem entryPush_map {comp : K → Res Ordering} {comp' : K' → Res Ordering} (hc : ∀ k, comp' (φ k) = comp k) (k : K) (v : V) (pick : Nat)
    (l : List (K × List V)) : entryPush comp' (φ k) (ψ v) pick (l.map (Prod.map φ (List.map ψ))) =
      (entryPush comp k v pick l).map (List.map (Prod.map φ (List.map ψ))) := by
  induction l generalizing pick with
  | nil => rfl
  | cons e l ih =>
    simp only [List.map_cons, entryPush, Prod.map_fst, hc, bind, Except.bind, pure, Except.pure]
    cases comp e.1 with
    | error _ => rfl
    | ok o =>
      cases o with
      | lt => rfl
      | gt => simp only [ih]; cases entryPush comp k v pick l <;> rfl
      | eq =>
        cases l with
        | nil => cases pick <;> simp [Except.map]
        | cons e' l =>
          simp only [List.map_cons, Prod.map_fst, hc] at ih ⊢
          cases comp e'.1 with
          | error _ => rfl
          | ok o =>
            simp only
            cases decide (o = Ordering.eq)
            · cases pick <;> simp [Except.map]
            · cases pick with
              | zero => simp [Except.map]
              | succ n => simp only [ih]; cases entryPush comp k v n (e' :: l) <;> rfl

theorem isZeroOverlap_map (q : Q) : (m.mapEntries φ ψ).isZeroOverlap q = m.isZeroOverlap q := by
  simp only [isZeroOverlap, mapEntries, BTree.range_map (exclusiveComp_map hφ _ _) (exclusiveComp_map hφ _ _), List.head?_map,
    Option.isNone_map]

theorem insertStrictBack_map (k : K) (v : V) (pick : Nat) : (m.mapEntries φ ψ).insertStrictBack (φ k) (ψ v) pick =
    (m.insertStrictBack k v pick).map (Prod.map (mapEntries φ ψ) (fun r => match r with | .ok u => .ok u | .error e => .error ⟨ψ e.value⟩)) := by
  have h : (m.mapEntries φ ψ).isZeroOverlap (φ k) = m.isZeroOverlap k := by
    rw [isZeroOverlap_map hφ]
    simp only [isZeroOverlap, invalidIntervalPanic_map hφ, hφ.start_eq, hφ.stop_eq]
  unfold insertStrictBack
  simp only [h, invalidIntervalPanic_map hφ, bind, Except.bind, pure, Except.pure]
  simp only [mapEntries, entryPush_map (insertComp_map hφ k)]
  cases invalidIntervalPanic k with
  | error _ => rfl
  | ok _ =>
    rcases m.isZeroOverlap k with _ | (_ | _)
    · rfl
    · rfl
    · simp only [Bool.not_true, Bool.false_eq_true, if_false]
      cases entryPush (insertComp k) k v pick m.inner <;> rfl

theorem cutLoop_map (hP : ∀ i : Interval I, i.start ≤ i.stop → P i) (q : Q) (len : Nat) (l : List (K × List V)) : cutLoop q len (l.map (Prod.map φ (List.map ψ))) =
    (cutLoop q len l).map (Prod.map (List.map (Prod.map φ (List.map ψ))) (Prod.map (List.map (Prod.map φ ψ)) id)) := by
  induction l generalizing len with
  | nil => rfl
  | cons e l ih =>
    obtain ⟨k, vs⟩ := e
    simp only [List.map_cons, cutLoop, Prod.map_apply, overlaps_map_left hφ, cutInterval_map_left hφ]
    cases InclusiveInterval.overlaps k q with
    | error _ => rfl
    | ok b =>
      cases b with
      | false => rfl
      | true =>
        simp only [bind, Except.bind, Bool.not_true, Bool.false_eq_true, if_false]
        cases hcut : cutInterval k q with
        | error _ => rfl
        | ok c =>
          have hv := cutInterval_valid hcut
          obtain ⟨b, i, a⟩ := c
          have hm : List.mapM (fun v => (do pure ((ofInterval (← unwrap i) : K'), v) : Res (K' × V'))) (vs.map ψ) =
            (List.mapM (fun v => (do pure ((ofInterval (← unwrap i) : K), v) : Res (K × V))) vs).map (List.map (Prod.map φ ψ)) := by
            rw [List.mapM_map]
            refine mapM_map (fun v => ?_) vs
            cases i with
            | none => rfl
            | some i => simp [unwrap, Except.map, pure, Except.pure, bind, Except.bind, hφ.of_eq i (hP i (hv.2.1 i rfl))]
          simp only [bind, Except.bind] at hm
          simp only [hm, List.length_map]
          generalize (List.mapM _ vs : Res (List (K × V))) = r
          have hb : ∀ x ∈ b, φ (ofInterval x) = ofInterval x := fun x hx => hφ.of_eq x (hP x (hv.1 x hx))
          have ha : ∀ x ∈ a, φ (ofInterval x) = ofInterval x := fun x hx => hφ.of_eq x (hP x (hv.2.2 x hx))
          cases b <;> cases a <;> simp only [ih] <;> (split_ifs; · rfl) <;> (cases r; · rfl) <;> simp only [Except.map] <;>
            (rcases cutLoop q _ l with _ | ⟨x, y, z⟩ <;> simp [pure, Except.pure]) <;> simp [ha, hb]

theorem cut_map (hP : ∀ i : Interval I, i.start ≤ i.stop → P i) (q : Q) : (m.mapEntries φ ψ).cut q = (m.cut q).map (Prod.map (mapEntries φ ψ) (List.map (Prod.map φ ψ))) := by
  unfold cut
  simp only [mapEntries, BTree.upperBound_map (exclusiveComp_map hφ _ _), key_map, Option.isNone_map, moveNext_map,
    bind, Except.bind, pure, Except.pure]
  rw [← apply_ite (BTree.Cursor.mapC φ (List.map ψ))]
  cases invalidIntervalPanic q with
  | error _ => rfl
  | ok _ =>
    simp only
    generalize (if (BTree.upperBound (exclusiveComp (start q) .lt) m.inner).key.isNone = true then _ else _ : BTree.Cursor K (List V)) = c
    simp only [BTree.Cursor.mapC, cutLoop_map hφ hP]
    rcases cutLoop q m.len c.after with _ | ⟨x, y, z⟩ <;> simp [Except.map, mapEntries]

theorem overlapping_map (q : Q) : (m.mapEntries φ ψ).overlapping q = (m.overlapping q).map (List.map (Prod.map φ ψ)) := by
  unfold overlapping
  simp only [mapEntries, BTree.range_map (inclusiveComp_map hφ _ _) (inclusiveComp_map hφ _ _), flatten_map, bind, Except.bind, pure, Except.pure]
  cases invalidIntervalPanic q <;> rfl

omit hφ in
theorem firstKeyValue_map : (m.mapEntries φ ψ).firstKeyValue = m.firstKeyValue.map (Prod.map φ ψ) := by
  simp only [firstKeyValue, mapEntries, List.head?_map]
  cases m.inner.head? with
  | none => rfl
  | some e => obtain ⟨k, vs⟩ := e; cases vs <;> rfl

omit hφ in
theorem lastKeyValue_map : (m.mapEntries φ ψ).lastKeyValue = m.lastKeyValue.map (Prod.map φ ψ) := by
  simp only [lastKeyValue, mapEntries, List.getLast?_map]
  cases m.inner.getLast? with
  | none => rfl
  | some e =>
    obtain ⟨k, vs⟩ := e
    simp only [Option.map_some, Option.bind_eq_bind, Option.bind_some, Prod.map_apply, List.getLast?_map]
    cases vs.getLast? <;> rfl
end
end ZosditMap

namespace Spec
/-- the same call with intervals and values replaced -/
def ZOp.map (φ : K → K') (ψ : V → V') : ZOp I K V → ZOp I K' V'
  | .insertStrictBack k v pick => .insertStrictBack (φ k) (ψ v) pick
  | .removeLastValueAtPoint p => .removeLastValueAtPoint p
  | .cut q => .cut q

/-- the same output with intervals and values replaced -/
def ZOut.map (φ : K → K') (ψ : V → V') : ZOut K V → ZOut K' V'
  | .strict (.ok u) => .strict (.ok u)
  | .strict (.error v) => .strict (.error (ψ v))
  | .optValue v => .optValue (v.map ψ)
  | .entries l => .entries (l.map (Prod.map φ ψ))
end Spec

namespace ZosditMap

theorem step_map (hφ : KeepsInterval P φ) (hP : ∀ i : Interval I, i.start ≤ i.stop → P i) (m : ZosditMap K V) (op : ZOp I K V) :
    (m.mapEntries φ ψ).step (op.map φ ψ) = (m.step op).map (Prod.map (mapEntries φ ψ) (ZOut.map φ ψ)) := by
  cases op with
  | insertStrictBack k v pick =>
    simp only [ZOp.map, step, insertStrictBack_map hφ, bind, Except.bind, pure, Except.pure]
    rcases m.insertStrictBack k v pick with _ | ⟨m, _ | _⟩ <;> rfl
  | removeLastValueAtPoint p =>
    simp only [ZOp.map, step, removeLastValueAtPoint_map hφ, bind, Except.bind, pure, Except.pure]
    cases m.removeLastValueAtPoint p <;> rfl
  | cut q =>
    simp only [ZOp.map, step, cut_map hφ m hP, bind, Except.bind, pure, Except.pure]
    cases m.cut q <;> rfl

theorem run_map (hφ : KeepsInterval P φ) (hP : ∀ i : Interval I, i.start ≤ i.stop → P i) (ops : List (ZOp I K V)) (m : ZosditMap K V) :
    (m.mapEntries φ ψ).run (ops.map (ZOp.map φ ψ)) =
      ((m.run ops).1.mapEntries φ ψ, (m.run ops).2.map (Except.map (ZOut.map φ ψ))) := by
  induction ops generalizing m with
  | nil => rfl
  | cons op ops ih =>
    simp only [List.map_cons, run, step_map hφ hP m]
    rcases m.step op with _ | ⟨m1, o⟩
    · simp only [Except.map, ih, List.map_cons]
    · simp only [Except.map, Prod.map, ih, List.map_cons]
end ZosditMap


/-! ## `Gqdit` -/
namespace Gqdit
variable {D D' : Type} [DecidableEq D] [DecidableEq D'] {σ : D ↪ D'}

/-- the `Gqdit` with intervals and identifiers replaced -/
def mapEntries (φ : K → K') (σ : D ↪ D') (g : Gqdit K D) : Gqdit K' D' := ⟨g.inner.mapEntries φ (Finset.map σ)⟩

theorem beq_map (a b : Finset D) : (a.map σ == b.map σ) = (a == b) := by
  by_cases h : a = b
  · simp [h]
  · have : a.map σ ≠ b.map σ := fun e => h (Finset.map_injective σ e)
    simp [h]

theorem coalesceFrom_map {α β : Type} {f : α → α → Res (Except (α × α) α)} {f' : β → β → Res (Except (β × β) β)} {φ : α → β}
    (h : ∀ x y, f' (φ x) (φ y) = (f x y).map (fun r => match r with | .ok z => .ok (φ z) | .error e => .error (Prod.map φ φ e)))
    (x : α) (l : List α) : coalesceFrom f' (φ x) (l.map φ) = (coalesceFrom f x l).map (List.map φ) := by
  induction l generalizing x with
  | nil => rfl
  | cons y l ih =>
    simp only [List.map_cons, coalesceFrom, h, bind, Except.bind, pure, Except.pure]
    rcases f x y with _ | (⟨a, b⟩ | z)
    · rfl
    · simp only [Except.map, Prod.map_apply, ih]; cases coalesceFrom f b l <;> rfl
    · simp only [Except.map, ih]

theorem coalesce_map {α β : Type} {f : α → α → Res (Except (α × α) α)} {f' : β → β → Res (Except (β × β) β)} {φ : α → β}
    (h : ∀ x y, f' (φ x) (φ y) = (f x y).map (fun r => match r with | .ok z => .ok (φ z) | .error e => .error (Prod.map φ φ e)))
    (l : List α) : coalesce f' (l.map φ) = (coalesce f l).map (List.map φ) := by
  cases l with
  | nil => rfl
  | cons x l => exact coalesceFrom_map h x l

theorem validIdentifier_map (d : D) (ids : Finset D) : validIdentifier (σ d) (ids.map σ) = validIdentifier d ids := by
  simp [validIdentifier]

section
variable (hφ : KeepsInterval P φ) (g : Gqdit K D)
include hφ

omit hφ g in
theorem mkChecked_valid {i j : Interval I} (h : mkChecked i = .ok j) : j.start ≤ j.stop := by
  by_cases hi : start i ≤ stop i
  · simp only [mkChecked, invalidIntervalPanic_ok hi, bind, Except.bind, pure, Except.pure] at h
    cases h; exact hi
  · simp only [mkChecked, invalidIntervalPanic_err hi, bind, Except.bind] at h
    cases h

omit hφ g in
theorem mergeOrdered_valid {a b : K} {i : Interval I} (h : mergeOrdered a b = .ok i) : i.start ≤ i.stop := mkChecked_valid h

theorem mergeOrdered_map (a b : K) : mergeOrdered (φ a) (φ b) = mergeOrdered a b := by
  simp only [mergeOrdered, hφ.start_eq, hφ.stop_eq]
theorem overlapsOrdered_map (a b : K) : overlapsOrdered (φ a) (φ b) = overlapsOrdered a b := by
  simp only [overlapsOrdered, hφ.start_eq, hφ.stop_eq, containsPoint_map hφ]
theorem touchesOrdered_map (a b : K) : touchesOrdered (φ a) (φ b) = touchesOrdered a b := by
  simp only [touchesOrdered, hφ.start_eq, hφ.stop_eq]

theorem gapsNoIdentifier_map (q : Q) : (g.mapEntries φ σ).gapsNoIdentifier q = (g.gapsNoIdentifier q).map (List.map φ) := by
  simp only [gapsNoIdentifier, mapEntries, NoditMap.overlapping_map hφ, bind, Except.bind, pure, Except.pure]
  cases invalidIntervalPanic q with
  | error _ => rfl
  | ok _ =>
    simp only
    cases g.inner.overlapping q with
    | error _ => rfl
    | ok l => simp [Except.map, List.filter_map, Function.comp_def]

theorem expandRight_map (hP : ∀ i : Interval I, i.start ≤ i.stop → P i) (d : D) (p : I) : (g.mapEntries φ σ).expandGapsAtPointRight (σ d) p =
    (g.expandGapsAtPointRight d p).map (Option.map φ) := by
  simp only [expandGapsAtPointRight, mapEntries, NoditMap.overlapping_map hφ]
  simp only [bind, Except.bind, pure, Except.pure]
  cases iu p with
  | error _ => rfl
  | ok q =>
    simp only
    cases g.inner.overlapping q with
    | error _ => rfl
    | ok l =>
      have e : ((l.map (Prod.map φ (Finset.map σ))).takeWhile (fun e => validIdentifier (σ d) e.2)).map Prod.fst =
          ((l.takeWhile (fun e => validIdentifier d e.2)).map Prod.fst).map φ := by
        rw [List.takeWhile_map]; simp [Function.comp_def, validIdentifier_map]
      simp only [Except.map, e]
      have hc : ∀ xs : List K, coalesce (fun x y => (do pure (.ok (ofInterval (← mergeOrdered x y) : K')) : Res (Except (K' × K') K')))
          (xs.map φ) = (coalesce (fun x y => (do pure (.ok (ofInterval (← mergeOrdered x y) : K)) : Res (Except (K × K) K))) xs).map
            (List.map φ) := by
        refine fun xs => coalesce_map (fun x y => ?_) xs
        rw [mergeOrdered_map hφ]
        cases hmo : mergeOrdered x y with
        | error _ => rfl
        | ok v => simp [Except.map, bind, Except.bind, pure, Except.pure, hφ.of_eq v (hP v (mergeOrdered_valid hmo))]
      simp only [bind, Except.bind, pure, Except.pure] at hc
      simp only [hc]
      generalize (coalesce _ _ : Res (List K)) = r
      cases r <;> simp [Except.map]

theorem expandLeft_map (hP : ∀ i : Interval I, i.start ≤ i.stop → P i) (d : D) (p : I) : (g.mapEntries φ σ).expandGapsAtPointLeft (σ d) p =
    (g.expandGapsAtPointLeft d p).map (Option.map φ) := by
  simp only [expandGapsAtPointLeft, mapEntries, NoditMap.overlapping_map hφ]
  simp only [bind, Except.bind, pure, Except.pure]
  cases ui p with
  | error _ => rfl
  | ok q =>
    simp only
    cases g.inner.overlapping q with
    | error _ => rfl
    | ok l =>
      have e : ((l.map (Prod.map φ (Finset.map σ))).reverse.takeWhile (fun e => validIdentifier (σ d) e.2)).map Prod.fst =
          ((l.reverse.takeWhile (fun e => validIdentifier d e.2)).map Prod.fst).map φ := by
        rw [← List.map_reverse, List.takeWhile_map]; simp [Function.comp_def, validIdentifier_map]
      simp only [Except.map, e]
      have hc : ∀ xs : List K, coalesce (fun x y => (do pure (.ok (ofInterval (← mergeOrdered y x) : K')) : Res (Except (K' × K') K')))
          (xs.map φ) = (coalesce (fun x y => (do pure (.ok (ofInterval (← mergeOrdered y x) : K)) : Res (Except (K × K) K))) xs).map
            (List.map φ) := by
        refine fun xs => coalesce_map (fun x y => ?_) xs
        rw [mergeOrdered_map hφ]
        cases hmo : mergeOrdered y x with
        | error _ => rfl
        | ok v => simp [Except.map, bind, Except.bind, pure, Except.pure, hφ.of_eq v (hP v (mergeOrdered_valid hmo))]
      simp only [bind, Except.bind, pure, Except.pure] at hc
      simp only [hc]
      generalize (coalesce _ _ : Res (List K)) = r
      cases r <;> simp [Except.map]

theorem gapsWithIdentifier_map (hP : ∀ i : Interval I, i.start ≤ i.stop → P i) (d : D) (q : Q) : (g.mapEntries φ σ).gapsWithIdentifier (σ d) q =
    (g.gapsWithIdentifier d q).map (List.map φ) := by
  simp only [gapsWithIdentifier, expandLeft_map hφ g hP, expandRight_map hφ g hP]
  simp only [mapEntries, NoditMap.overlapping_map hφ, bind, Except.bind, pure, Except.pure]
  cases invalidIntervalPanic q with
  | error _ => rfl
  | ok _ =>
  simp only
  cases g.inner.overlapping q with
  | error _ => rfl
  | ok l =>
  have e : (((l.map (Prod.map φ (Finset.map σ))).filter (fun e => validIdentifier (σ d) e.2)).map Prod.fst).filter (fun gap =>
      !InclusiveInterval.containsPoint gap (start q) && !InclusiveInterval.containsPoint gap (stop q)) =
      (((l.filter (fun e => validIdentifier d e.2)).map Prod.fst).filter (fun gap =>
      !InclusiveInterval.containsPoint gap (start q) && !InclusiveInterval.containsPoint gap (stop q))).map φ := by
    simp [List.filter_map, Function.comp_def, validIdentifier_map, containsPoint_map hφ]
  simp only [Except.map, e]
  generalize (List.filter (fun gap =>
      !InclusiveInterval.containsPoint gap (start q) && !InclusiveInterval.containsPoint gap (stop q))
      ((l.filter (fun e => validIdentifier d e.2)).map Prod.fst)) = ne
  have key : ∀ xs : List K, coalesce (fun x y => (do
        if ← touchesOrdered x y then pure (.ok (ofInterval (← mergeOrdered x y) : K')) else pure (.error (x, y)) : Res (Except (K' × K') K')))
        (xs.map φ) =
      (coalesce (fun x y => (do
        if ← touchesOrdered x y then pure (.ok (ofInterval (← mergeOrdered x y) : K)) else pure (.error (x, y)) : Res (Except (K × K) K)))
        xs).map (List.map φ) := by
    intro xs
    refine coalesce_map (fun x y => ?_) xs
    rw [mergeOrdered_map hφ, touchesOrdered_map hφ]
    simp only [bind, Except.bind, pure, Except.pure]
    rcases touchesOrdered x y with _ | (_ | _)
    · rfl
    · rfl
    · simp only [if_true]
      cases hmo : mergeOrdered x y with
      | error _ => rfl
      | ok v => simp [Except.map, hφ.of_eq v (hP v (mergeOrdered_valid hmo))]
  simp only [bind, Except.bind, pure, Except.pure] at key
  have key' : ∀ (a : Option K) (b : Option K), (a.map φ).toList ++ ne.map φ ++ (b.map φ).toList = (a.toList ++ ne ++ b.toList).map φ := by
    intro a b; cases a <;> cases b <;> simp
  cases g.expandGapsAtPointLeft d (start q) with
  | error _ => rfl
  | ok a =>
  simp only
  cases g.expandGapsAtPointRight d (stop q) with
  | error _ => rfl
  | ok b =>
    cases a with
    | none => simp only [Option.map_none]; exact (congrArg _ (key' none b)).trans (key _)
    | some a =>
      cases b with
      | none => exact (congrArg _ (key' (some a) none)).trans (key _)
      | some b =>
        simp only [Option.map_some, overlapsOrdered_map hφ, mergeOrdered_map hφ]
        cases overlapsOrdered a b with
        | false => exact (congrArg _ (key' (some a) (some b))).trans (key _)
        | true =>
          simp only [if_true]
          cases hmo : mergeOrdered a b with
          | error _ => rfl
          | ok m =>
            have hk := key' (some (ofInterval m)) none
            simp only [Option.map_some, hφ.of_eq m (hP m (mergeOrdered_valid hmo))] at hk
            exact (congrArg _ hk).trans (key _)

omit g in
theorem fine_insert {m m' : NoditMap K (Finset D)} (hm : NoditMap.Fine P K' m) {k : K} {v : Finset D} {r : Except (OverlapError (Finset D)) K}
    (h : m.insertMergeTouchingIfValuesEqual k v = .ok (m', r)) : NoditMap.Fine P K' m' :=
  NoditMap.Fine.step hφ hm (op := .insertMergeTouchingIfValuesEqual k v) (ψ := id) (Or.inl rfl) (Or.inr fun _ _ => rfl)
    (.insertMergeTouchingIfValuesEqual k v) (o := .merge (NoditMap.errValue r)) (by simp [NoditMap.step, h, bind, Except.bind, pure, Except.pure])

omit g in
theorem fine_cut {m m' : NoditMap K (Finset D)} (hm : NoditMap.Fine P K' m) {q : Interval I} {l : List (K × Finset D)}
    (h : m.cut q = .ok (m', l)) : NoditMap.Fine P K' m' :=
  NoditMap.Fine.step hφ hm (op := .cut q) (ψ := id) (Or.inl rfl) (Or.inr fun _ _ => rfl) (.cut q) (o := .entries l)
    (by simp [NoditMap.step, h, bind, Except.bind, pure, Except.pure])

omit g hφ in
theorem cut_as_interval (m : NoditMap K V) (q : Q) : m.cut q = m.cut (⟨start q, stop q⟩ : Interval I) := by
  have : ∀ l : List (K × V), NoditMap.cutLoop q l = NoditMap.cutLoop (⟨start q, stop q⟩ : Interval I) l := by
    intro l
    induction l with
    | nil => rfl
    | cons e l ih => obtain ⟨k, v⟩ := e; unfold NoditMap.cutLoop; rw [ih]; rfl
  unfold NoditMap.cut
  simp only [this]
  rfl

omit g in
theorem putBack_map {f : Finset D → Finset D} {f' : Finset D' → Finset D'} (hf : ∀ s, f' (s.map σ) = (f s).map σ)
    (l : List (K × Finset D)) {m : NoditMap K (Finset D)} (hm : NoditMap.Fine P K' m) :
    putBack f' (m.mapEntries φ (Finset.map σ)) (l.map (Prod.map φ (Finset.map σ))) =
      (putBack f m l).map (NoditMap.mapEntries φ (Finset.map σ)) ∧ ∀ m', putBack f m l = .ok m' → NoditMap.Fine P K' m' := by
  induction l generalizing m with
  | nil => exact ⟨rfl, fun m' h => by cases h; exact hm⟩
  | cons e l ih =>
    obtain ⟨k, ids⟩ := e
    simp only [List.map_cons, Prod.map_apply, putBack, hf, NoditMap.insertMergeTouchingIfValuesEqual_map hφ m hm beq_map, bind, Except.bind]
    cases h : m.insertMergeTouchingIfValuesEqual k (f ids) with
    | error _ => exact ⟨rfl, fun m' h => by cases h⟩
    | ok r =>
      obtain ⟨m1, _ | _⟩ := r
      · exact ⟨rfl, fun m' h => by cases h⟩
      · exact ih (fine_insert hφ hm h)

theorem cutWithIdentifiers_map (hm : NoditMap.Fine P K' g.inner) (ids : Finset D) (q : Q) : (g.mapEntries φ σ).cutWithIdentifiers (ids.map σ) q =
    (g.cutWithIdentifiers ids q).map (mapEntries φ σ) ∧ ∀ g', g.cutWithIdentifiers ids q = .ok g' → NoditMap.Fine P K' g'.inner := by
  simp only [cutWithIdentifiers, Finset.map_eq_empty, mapEntries, NoditMap.cut_map hφ g.inner hm.valid, bind, Except.bind, pure, Except.pure]
  cases invalidIntervalPanic q with
  | error _ => exact ⟨rfl, fun g' h => by cases h⟩
  | ok _ =>
    simp only
    split_ifs
    · exact ⟨rfl, fun g' h => by cases h; exact hm⟩
    · cases hc : g.inner.cut q with
      | error _ => exact ⟨rfl, fun g' h => by cases h⟩
      | ok r =>
        rw [cut_as_interval] at hc
        simp only [Except.map, Prod.map]
        obtain ⟨h1, h2⟩ := putBack_map (σ := σ) hφ (f := fun s => s.filter (fun i => i ∉ ids)) (f' := fun s => s.filter (fun i => i ∉ ids.map σ)) (by
          intro s; ext x; simp only [Finset.mem_filter, Finset.mem_map]; constructor
          · rintro ⟨⟨a, ha, rfl⟩, h⟩; exact ⟨a, ⟨ha, fun h' => h ⟨a, h', rfl⟩⟩, rfl⟩
          · rintro ⟨a, ⟨ha, h⟩, rfl⟩; exact ⟨⟨a, ha, rfl⟩, fun ⟨b, hb, e⟩ => h (σ.injective e ▸ hb)⟩) r.2 (fine_cut hφ hm hc)
        rw [h1]
        cases hp : putBack (fun s : Finset D => s.filter (fun i => i ∉ ids)) r.1 r.2 with
        | error _ => exact ⟨rfl, fun g' h => by cases h⟩
        | ok m' => exact ⟨rfl, fun g' h => by cases h; exact h2 m' hp⟩

theorem cutAllIdentifiers_map (hm : NoditMap.Fine P K' g.inner) (q : Q) : (g.mapEntries φ σ).cutAllIdentifiers q =
    (g.cutAllIdentifiers q).map (mapEntries φ σ) ∧ ∀ g', g.cutAllIdentifiers q = .ok g' → NoditMap.Fine P K' g'.inner := by
  simp only [cutAllIdentifiers, mapEntries, NoditMap.cut_map hφ g.inner hm.valid, bind, Except.bind, pure, Except.pure]
  cases invalidIntervalPanic q with
  | error _ => exact ⟨rfl, fun g' h => by cases h⟩
  | ok _ =>
    simp only
    cases hc : g.inner.cut q with
    | error _ => exact ⟨rfl, fun g' h => by cases h⟩
    | ok r =>
      rw [cut_as_interval] at hc
      simp only [Except.map, Prod.map]
      obtain ⟨h1, h2⟩ := putBack_map (σ := σ) hφ (f := fun _ => ∅) (f' := fun _ => ∅) (by simp) r.2 (fine_cut hφ hm hc)
      rw [h1]
      cases hp : putBack (fun _ : Finset D => ∅) r.1 r.2 with
      | error _ => exact ⟨rfl, fun g' h => by cases h⟩
      | ok m' => exact ⟨rfl, fun g' h => by cases h; exact h2 m' hp⟩

theorem insert_map (hm : NoditMap.Fine P K' g.inner) (ids : Finset D) (k : K) : (g.mapEntries φ σ).insert (ids.map σ) (φ k) =
    (g.insert ids k).map (mapEntries φ σ) ∧ ∀ g', g.insert ids k = .ok g' → NoditMap.Fine P K' g'.inner := by
  simp only [insert, Finset.map_eq_empty, mapEntries, NoditMap.cutKey hφ, NoditMap.cut_map hφ g.inner hm.valid, invalidIntervalPanic_map hφ, bind,
    Except.bind, pure, Except.pure]
  cases invalidIntervalPanic k with
  | error _ => exact ⟨rfl, fun g' h => by cases h⟩
  | ok _ =>
    simp only
    split_ifs
    · exact ⟨rfl, fun g' h => by cases h; exact hm⟩
    · cases hc : g.inner.cut k with
      | error _ => exact ⟨rfl, fun g' h => by cases h⟩
      | ok r =>
        rw [cut_as_interval] at hc
        simp only [Except.map, Prod.map]
        obtain ⟨h1, h2⟩ := putBack_map (σ := σ) hφ (f := fun s => s ∪ ids) (f' := fun s => s ∪ ids.map σ) (by intro s; rw [Finset.map_union]) r.2
          (fine_cut hφ hm hc)
        rw [h1]
        cases hp : putBack (fun s : Finset D => s ∪ ids) r.1 r.2 with
        | error _ => exact ⟨rfl, fun g' h => by cases h⟩
        | ok m' => exact ⟨rfl, fun g' h => by cases h; exact h2 m' hp⟩

omit g in
theorem insertAll_map (l : List (K × Finset D)) {g : Gqdit K D} (hm : NoditMap.Fine P K' g.inner) :
    (g.mapEntries φ σ).insertAll (l.map (Prod.map φ (Finset.map σ))) =
      (g.insertAll l).map (mapEntries φ σ) ∧ ∀ g', g.insertAll l = .ok g' → NoditMap.Fine P K' g'.inner := by
  induction l generalizing g with
  | nil => exact ⟨rfl, fun g' h => by cases h; exact hm⟩
  | cons e l ih =>
    obtain ⟨k, ids⟩ := e
    obtain ⟨h1, h2⟩ := insert_map (σ := σ) hφ g hm ids k
    simp only [List.map_cons, Prod.map_apply, insertAll, h1, bind, Except.bind]
    cases hi : g.insert ids k with
    | error _ => exact ⟨rfl, fun g' h => by cases h⟩
    | ok g1 => exact ih (h2 g1 hi)

theorem append_map (hm : NoditMap.Fine P K' g.inner) (o : Gqdit K D) : (g.mapEntries φ σ).append (o.mapEntries φ σ) =
    (g.append o).map (Prod.map (mapEntries φ σ) (mapEntries φ σ)) ∧ ∀ r, g.append o = .ok r → NoditMap.Fine P K' r.1.inner := by
  unfold append
  simp only [bind, Except.bind, pure, Except.pure]
  cases (uu : Res (Interval I)) with
  | error _ => exact ⟨rfl, fun g' h => by cases h⟩
  | ok full =>
    have h : (o.mapEntries φ σ).inner.removeOverlapping full = _ := NoditMap.removeOverlapping_map hφ o.inner full
    simp only [h]
    cases o.inner.removeOverlapping full with
    | error _ => exact ⟨rfl, fun g' h => by cases h⟩
    | ok r =>
      simp only [Except.map, Prod.map]
      obtain ⟨h1, h2⟩ := insertAll_map (σ := σ) hφ r.2 hm
      rw [h1]
      cases hi : g.insertAll r.2 with
      | error _ => exact ⟨rfl, fun g' h => by cases h⟩
      | ok g' => exact ⟨rfl, fun r h => by cases h; exact h2 g' hi⟩

theorem identifiersAtPoint_map (p : I) : (g.mapEntries φ σ).identifiersAtPoint p = (g.identifiersAtPoint p).map (Finset.map σ) := by
  simp only [identifiersAtPoint, mapEntries, NoditMap.getAtPoint_map hφ, bind, Except.bind, pure, Except.pure]
  rcases g.inner.getAtPoint p with _ | (_ | _) <;> rfl

omit g in
theorem new_map (hm : NoditMap.Fine P K' (NoditMap.new : NoditMap K (Finset D))) :
    (new : Res (Gqdit K' D')) = (new : Res (Gqdit K D)).map (mapEntries φ σ) ∧
      ∀ g, (new : Res (Gqdit K D)) = .ok g → NoditMap.Fine P K' g.inner := by
  unfold new
  simp only [bind, Except.bind, pure, Except.pure]
  cases hu : (uu : Res (Interval I)) with
  | error _ => exact ⟨rfl, fun g h => by cases h⟩
  | ok full =>
    have h := NoditMap.insertStrict_map (ψ := Finset.map σ) hφ (NoditMap.new : NoditMap K (Finset D)) (ofInterval full) ∅
    have e : (NoditMap.new : NoditMap K (Finset D)).mapEntries φ (Finset.map σ) = NoditMap.new := rfl
    rw [e, hφ.of_eq full (hm.valid full (mkChecked_valid hu)), Finset.map_empty] at h
    simp only [h]
    cases hi : (NoditMap.new : NoditMap K (Finset D)).insertStrict (ofInterval full) ∅ with
    | error _ => exact ⟨rfl, fun g h => by cases h⟩
    | ok r =>
      obtain ⟨m, _ | _⟩ := r
      · exact ⟨rfl, fun g h => by cases h⟩
      · refine ⟨rfl, fun g h => ?_⟩
        cases h
        exact NoditMap.Fine.step hφ hm (op := .insertStrict (ofInterval full) ∅) (ψ := id) (Or.inl rfl) (Or.inr fun _ _ => rfl)
          (.insertStrict _ _) (o := .strict (.ok ())) (by simp [NoditMap.step, hi, bind, Except.bind, pure, Except.pure, NoditMap.errValue])
end
end Gqdit

namespace Spec
variable {D D' : Type}
/-- the same history with intervals and identifiers replaced -/
def GqHist.map (φ : K → K') (σ : D ↪ D') : GqHist I K D → GqHist I K' D'
  | .new => .new
  | .insert g ids k => .insert (g.map φ σ) (ids.map σ) (φ k)
  | .cutWithIdentifiers g ids q => .cutWithIdentifiers (g.map φ σ) (ids.map σ) q
  | .cutAllIdentifiers g q => .cutAllIdentifiers (g.map φ σ) q
  | .append g o => .append (g.map φ σ) (o.map φ σ)
end Spec

namespace Gqdit
variable {D D' : Type} [DecidableEq D] [DecidableEq D'] {σ : D ↪ D'}

theorem eval_map (hφ : KeepsInterval P φ) (hm : NoditMap.Fine P K' (NoditMap.new : NoditMap K (Finset D))) (h : GqHist I K D) :
    eval (h.map φ σ) = (eval h).map (mapEntries φ σ) ∧ ∀ g, eval h = .ok g → NoditMap.Fine P K' g.inner := by
  induction h with
  | new => exact new_map hφ hm
  | insert g ids k ih =>
    simp only [GqHist.map, eval, ih.1, bind, Except.bind]
    cases hg : eval g with
    | error _ => exact ⟨rfl, fun g h => by cases h⟩
    | ok g => exact insert_map hφ g (ih.2 g hg) ids k
  | cutWithIdentifiers g ids q ih =>
    simp only [GqHist.map, eval, ih.1, bind, Except.bind]
    cases hg : eval g with
    | error _ => exact ⟨rfl, fun g h => by cases h⟩
    | ok g => exact cutWithIdentifiers_map hφ g (ih.2 g hg) ids q
  | cutAllIdentifiers g q ih =>
    simp only [GqHist.map, eval, ih.1, bind, Except.bind]
    cases hg : eval g with
    | error _ => exact ⟨rfl, fun g h => by cases h⟩
    | ok g => exact cutAllIdentifiers_map hφ g (ih.2 g hg) q
  | append g o ih1 ih2 =>
    simp only [GqHist.map, eval, ih1.1, ih2.1, bind, Except.bind, pure, Except.pure]
    cases hg : eval g with
    | error _ => exact ⟨rfl, fun g h => by cases h⟩
    | ok g =>
      simp only [Except.map]
      cases eval o with
      | error _ => exact ⟨rfl, fun g h => by cases h⟩
      | ok o =>
        obtain ⟨h1, h2⟩ := append_map (σ := σ) hφ g (ih1.2 g hg) o
        simp only [h1]
        cases ha : g.append o with
        | error _ => exact ⟨rfl, fun g h => by cases h⟩
        | ok r => exact ⟨rfl, fun g h => by cases h; exact h2 r ha⟩
end Gqdit

/-! ## The theorems -/

/-- an interval of any type as a plain `Interval` -/
def toInterval (k : K) : Interval I := ⟨start k, stop k⟩

/-- `From<Interval>` keeps both ends of every *valid* interval. Weaker than `LawfulInterval`: nothing is said about intervals
whose end is before their start, which a custom type may be unable to represent. -/
def FaithfulOnValid (I K : Type) [PointType I] [IntervalType I K] : Prop :=
  ∀ i : Interval I, i.start ≤ i.stop → start (ofInterval i : K) = i.start ∧ stop (ofInterval i : K) = i.stop

/-- `From<Interval>` gives an invalid interval for an invalid interval (whatever its ends are) -/
def InvalidStaysInvalid (I K : Type) [PointType I] [IntervalType I K] : Prop :=
  ∀ i : Interval I, i.stop < i.start → stop (ofInterval i : K) < start (ofInterval i : K)

theorem keeps_toInterval (hw : FaithfulOnValid I K) :
    KeepsInterval (fun i : Interval I => i.start ≤ i.stop) (toInterval : K → Interval I) where
  start_eq _ := rfl
  stop_eq _ := rfl
  of_eq i hi := by
    show (⟨_, _⟩ : Interval I) = i
    rw [(hw i hi).1, (hw i hi).2]

omit [PointType I] in
theorem keeps_id : KeepsInterval (fun _ : Interval I => True) (id : K → K) where
  start_eq _ := rfl
  stop_eq _ := rfl
  of_eq _ _ := rfl

theorem invalid_both (hi : InvalidStaysInvalid I K) (i : Interval I) (h : ¬ i.start ≤ i.stop) :
    isValid (ofInterval i : K) = false ∧ isValid (ofInterval i : Interval I) = false := by
  constructor
  · simp only [isValid, decide_eq_false_iff_not, not_le]; exact hi i (not_le.1 h)
  · simp only [isValid, decide_eq_false_iff_not, not_le]; exact not_le.1 h

theorem fine_new [LawfulPoint I] :
    NoditMap.Fine (fun i : Interval I => i.start ≤ i.stop) (Interval I) (NoditMap.new : NoditMap K V) :=
  Or.inr ⟨inferInstance, inferInstance, fun _ h => h, wf_iff_chain.1 ⟨by simp [NoditMap.new], by simp [NoditMap.new]⟩⟩

/-- **C87**, `NoditMap`: a history on a map with a custom interval type and the same history on a map with plain `Interval`s
return the same, call by call, and leave the same entries, once every custom interval is read as `start..=end`. The custom type
need only convert *valid* intervals faithfully, and, if the history asks for gaps, turn invalid intervals into invalid ones. -/
theorem C87_nodit_map [LawfulPoint I] (hw : FaithfulOnValid I K) [BEq V] {ops : List (Op I K V)} {ops' : List (Op I (Interval I) V)}
    (hg : (∀ q : Interval I, .gapsUntrimmed q ∉ ops ∧ .gapsTrimmed q ∉ ops ∧ .containsInterval q ∉ ops) ∨ InvalidStaysInvalid I K)
    (h : List.Forall₂ (Op.Corresponds toInterval id) ops ops') :
    (NoditMap.new.run ops').1.iter = (NoditMap.new.run ops).1.iter.map (Prod.map toInterval id) ∧
    (NoditMap.new.run ops').2 = (NoditMap.new.run ops).2.map (Except.map (Out.map toInterval id)) := by
  have := NoditMap.run_map (keeps_toInterval hw) (ψ := (id : V → V)) (ops := ops) (hg.imp (fun hg op ho => by
    cases op <;> try rfl
    · exact absurd ho (hg _).1
    · exact absurd ho (hg _).2.1
    · exact absurd ho (hg _).2.2) invalid_both) (Or.inr fun _ _ => rfl) h fine_new
  have e : (NoditMap.new : NoditMap K V).mapEntries toInterval id = NoditMap.new := rfl
  rw [e] at this
  rw [this]
  exact ⟨rfl, rfl⟩

/-- **C87**, `NoditSet`: the same intervals after every history, hence the same answers. -/
theorem C87_nodit_set [LawfulPoint I] (hw : FaithfulOnValid I K) (ops : List (SetOp I K)) (q : Q) (p : I) :
    let s := NoditSet.new.run ops
    let s' := NoditSet.new.run (ops.map (SetOp.map toInterval))
    s'.iter = s.iter.map toInterval ∧ s'.containsPoint p = s.containsPoint p ∧ s'.overlaps q = s.overlaps q ∧
    (InvalidStaysInvalid I K →
      s'.containsInterval q = s.containsInterval q ∧
      s'.gapsUntrimmed q = (s.gapsUntrimmed q).map (List.map toInterval) ∧
      s'.gapsTrimmed q = (s.gapsTrimmed q).map (List.map toInterval)) := by
  have hf : NoditMap.Fine (fun i : Interval I => i.start ≤ i.stop) (Interval I) (NoditSet.new : NoditSet K).inner := fine_new
  have h := NoditSet.run_map (keeps_toInterval hw) ops hf
  have hf' := NoditSet.fine_run (keeps_toInterval hw) ops hf
  have e : (NoditSet.new : NoditSet K).mapEntries toInterval = NoditSet.new := rfl
  rw [e] at h
  simp only [h]
  exact ⟨NoditSet.iter_map _, NoditMap.containsPoint_map' (keeps_toInterval hw) _ p, NoditMap.overlaps_map (keeps_toInterval hw) _ q,
    fun hi => ⟨NoditMap.containsInterval_map (keeps_toInterval hw) _ hf' (invalid_both hi) q,
      NoditMap.gapsUntrimmed_map (keeps_toInterval hw) _ hf' (invalid_both hi) q,
      NoditMap.gapsTrimmed_map (keeps_toInterval hw) _ hf' (invalid_both hi) q⟩⟩

/-- **C87**, `ZosditMap`: the same, with the queries. -/
theorem C87_zosdit_map (hw : FaithfulOnValid I K) (ops : List (ZOp I K V)) (q : Q) (p : I) :
    let z := ZosditMap.new.run ops
    let z' := ZosditMap.new.run (ops.map (ZOp.map toInterval id))
    z'.1.iter = z.1.iter.map (Prod.map toInterval id) ∧ z'.1.length = z.1.length ∧
    z'.2 = z.2.map (Except.map (ZOut.map toInterval id)) ∧
    z'.1.overlapping q = (z.1.overlapping q).map (List.map (Prod.map toInterval id)) ∧
    z'.1.isZeroOverlap q = z.1.isZeroOverlap q ∧
    z'.1.getLastValueAtPoint p = z.1.getLastValueAtPoint p ∧
    z'.1.firstKeyValue = z.1.firstKeyValue.map (Prod.map toInterval id) ∧
    z'.1.lastKeyValue = z.1.lastKeyValue.map (Prod.map toInterval id) := by
  have h := ZosditMap.run_map (keeps_toInterval hw) (fun _ h => h) (ψ := (id : V → V)) ops ZosditMap.new
  have e : (ZosditMap.new : ZosditMap K V).mapEntries toInterval id = ZosditMap.new := rfl
  rw [e] at h
  simp only [h]
  refine ⟨ZosditMap.flatten_map _, rfl, trivial, ZosditMap.overlapping_map (keeps_toInterval hw) _ q,
    ZosditMap.isZeroOverlap_map (keeps_toInterval hw) _ q, ?_, ZosditMap.firstKeyValue_map _, ZosditMap.lastKeyValue_map _⟩
  rw [ZosditMap.getLastValueAtPoint_map (keeps_toInterval hw), Option.map_id, id]

/-- **C87**, `Gqdit`: the same history panics for both types or for neither, and all queries agree. -/
theorem C87_gqdit [LawfulPoint I] (hw : FaithfulOnValid I K) {D : Type} [DecidableEq D] (h : GqHist I K D) :
    (∀ e, Gqdit.eval h = .error e → Gqdit.eval (h.map toInterval (.refl D)) = .error e) ∧
    ∀ g, Gqdit.eval h = .ok g → ∃ g', Gqdit.eval (h.map toInterval (.refl D)) = .ok g' ∧
      (∀ p, g'.identifiersAtPoint p = g.identifiersAtPoint p) ∧
      (∀ q : Q, g'.gapsNoIdentifier q = (g.gapsNoIdentifier q).map (List.map toInterval)) ∧
      (∀ (d : D) (q : Q), g'.gapsWithIdentifier d q = (g.gapsWithIdentifier d q).map (List.map toInterval)) := by
  rw [(Gqdit.eval_map (keeps_toInterval hw) fine_new h).1]
  refine ⟨fun e he => by rw [he]; rfl, fun g hg => ⟨_, by rw [hg]; rfl, fun p => ?_, fun q => ?_, fun d q => ?_⟩⟩
  · rw [Gqdit.identifiersAtPoint_map (keeps_toInterval hw)]
    cases g.identifiersAtPoint p <;> simp [Except.map]
  · exact Gqdit.gapsNoIdentifier_map (keeps_toInterval hw) g q
  · exact Gqdit.gapsWithIdentifier_map (keeps_toInterval hw) (σ := .refl D) g (fun _ h => h) d q

/-- **C88**, `NoditMap`: values are only passed around. Replacing every value by another one (any function `ψ`, even to a
one-element type) replaces the values in the results and nothing else. Only `insert_merge_touching_if_values_equal` looks at
values, and only through `==`. -/
theorem C88_nodit_map [BEq V] [BEq V'] {ops : List (Op I K V)} {ops' : List (Op I K V')}
    (hψ : (∀ k v, Op.insertMergeTouchingIfValuesEqual k v ∉ ops) ∨ ∀ a b : V, (ψ a == ψ b) = (a == b))
    (h : List.Forall₂ (Op.Corresponds id ψ) ops ops') :
    (NoditMap.new.run ops').1.iter = (NoditMap.new.run ops).1.iter.map (Prod.map id ψ) ∧
    (NoditMap.new.run ops').2 = (NoditMap.new.run ops).2.map (Except.map (Out.map id ψ)) := by
  have := NoditMap.run_map (keeps_id (K := K)) (Or.inr fun i hi => absurd trivial hi) hψ h (m := NoditMap.new) (Or.inl fun _ => trivial)
  have e : (NoditMap.new : NoditMap K V).mapEntries id ψ = NoditMap.new := rfl
  rw [e] at this
  rw [this]
  exact ⟨rfl, rfl⟩

/-- **C88**, `ZosditMap`. -/
theorem C88_zosdit_map (ψ : V → V') (ops : List (ZOp I K V)) (q : Q) (p : I) :
    let z := ZosditMap.new.run ops
    let z' := ZosditMap.new.run (ops.map (ZOp.map id ψ))
    z'.1.iter = z.1.iter.map (Prod.map id ψ) ∧ z'.1.length = z.1.length ∧
    z'.2 = z.2.map (Except.map (ZOut.map id ψ)) ∧
    z'.1.overlapping q = (z.1.overlapping q).map (List.map (Prod.map id ψ)) ∧
    z'.1.isZeroOverlap q = z.1.isZeroOverlap q ∧
    z'.1.getLastValueAtPoint p = (z.1.getLastValueAtPoint p).map ψ ∧
    z'.1.firstKeyValue = z.1.firstKeyValue.map (Prod.map id ψ) ∧
    z'.1.lastKeyValue = z.1.lastKeyValue.map (Prod.map id ψ) := by
  have h := ZosditMap.run_map (keeps_id (K := K)) (fun _ _ => trivial) (ψ := ψ) ops ZosditMap.new
  have e : (ZosditMap.new : ZosditMap K V).mapEntries id ψ = ZosditMap.new := rfl
  rw [e] at h
  simp only [h]
  exact ⟨ZosditMap.flatten_map _, rfl, trivial, ZosditMap.overlapping_map keeps_id _ q, ZosditMap.isZeroOverlap_map keeps_id _ q,
    ZosditMap.getLastValueAtPoint_map keeps_id _ p, ZosditMap.firstKeyValue_map _, ZosditMap.lastKeyValue_map _⟩

/-- **C88**, `Gqdit`: renaming the identifiers one-to-one renames them in the results and changes nothing else. -/
theorem C88_gqdit {D D' : Type} [DecidableEq D] [DecidableEq D'] (σ : D ↪ D') (h : GqHist I K D) :
    (∀ e, Gqdit.eval h = .error e → Gqdit.eval (h.map id σ) = .error e) ∧
    ∀ g, Gqdit.eval h = .ok g → ∃ g', Gqdit.eval (h.map id σ) = .ok g' ∧
      (∀ p, g'.identifiersAtPoint p = (g.identifiersAtPoint p).map (Finset.map σ)) ∧
      (∀ q : Q, g'.gapsNoIdentifier q = g.gapsNoIdentifier q) ∧
      (∀ (d : D) (q : Q), g'.gapsWithIdentifier (σ d) q = g.gapsWithIdentifier d q) := by
  rw [(Gqdit.eval_map keeps_id (Or.inl fun _ => trivial) h).1]
  refine ⟨fun e he => by rw [he]; rfl, fun g hg => ⟨_, by rw [hg]; rfl, fun p => ?_, fun q => ?_, fun d q => ?_⟩⟩
  · exact Gqdit.identifiersAtPoint_map keeps_id g p
  · rw [Gqdit.gapsNoIdentifier_map keeps_id]
    cases g.gapsNoIdentifier q <;> simp [Except.map]
  · rw [Gqdit.gapsWithIdentifier_map keeps_id _ (fun _ _ => trivial)]
    cases g.gapsWithIdentifier d q <;> simp [Except.map]

end

/-! ## Non-vacuity -/
section
attribute [local instance] C70_fixed_lawful

/-- a history with the (repaired) custom type of the README and the same with plain intervals -/
example : ∃ (ops : List (Op ResI8 FixedReservation Nat)) (ops' : List (Op ResI8 (Interval ResI8) Nat)),
    List.Forall₂ (Op.Corresponds toInterval id) ops ops' ∧
    (NoditMap.new.run ops').1.iter = [(⟨Demo.r8 0, Demo.r8 8⟩, 11), (⟨Demo.r8 10, Demo.r8 127⟩, 12)] ∧
    (NoditMap.new.run ops).1.iter = [(⟨.finite (Demo.r8 0) (Demo.r8 8)⟩, 11), (⟨.infinite (Demo.r8 10)⟩, 12)] := by
  refine ⟨[.insertStrict ⟨.finite (Demo.r8 0) (Demo.r8 20)⟩ 1, .insertOverwrite ⟨.infinite (Demo.r8 9)⟩ 2,
    .iterMut (fun _ v => v + 10), .cut ⟨Demo.r8 9, Demo.r8 9⟩], _,
    .cons (.insertStrict _ _) (.cons (.insertOverwrite _ _) (.cons (.iterMut (f' := fun _ v => v + 10) (fun _ _ => rfl))
      (.cons (.cut _) .nil))), ?_, ?_⟩
  · decide
  · decide

/-- forgetting the values: the hypothesis of `C88_nodit_map` for a function that is not injective -/
example : ∃ ops' : List (Op Demo.U8 (Interval Demo.U8) Unit), List.Forall₂ (Op.Corresponds id (fun _ : Nat => ())) Demo.ops ops' ∧
    (∀ k v, Op.insertMergeTouchingIfValuesEqual k v ∉ Demo.ops) ∧
    (NoditMap.new.run ops').1.iter = Demo.m.iter.map (Prod.map id (fun _ => ())) := by
  refine ⟨_, .cons (.insertStrict _ _) (.cons (.insertStrict _ _) (.cons (.insertOverwrite _ _) (.cons (.insertMergeTouching _ _)
    (.cons (.cut _) (.cons (.insertStrict _ _) .nil))))), ?_, by decide⟩
  intro k v; simp [Demo.ops]

/-- the hypothesis of `C88_gqdit` for a renaming of identifiers that is not onto, and a history that does not panic -/
example : ∃ g, Gqdit.eval (.cutWithIdentifiers (.insert (.insert .new {0, 1} (Demo.iv 3 9)) {2} (Demo.iv 5 20)) {1} (Demo.iv 4 6) :
      GqHist Demo.U8 (Interval Demo.U8) Nat) = .ok g ∧
    g.identifiersAtPoint (Demo.u8 5) = .ok {0, 2} ∧
    ((g.identifiersAtPoint (Demo.u8 5)).map (Finset.map ⟨(· + 7), fun _ _ h => Nat.add_right_cancel h⟩)) = .ok {7, 9} :=
  ⟨_, rfl, by decide, by decide⟩

/-- a custom type that cannot represent an invalid interval: two ends, the smaller one first, like many range types with a
normalising constructor -/
structure Sorted where
  lo : Demo.U8
  hi : Demo.U8
deriving DecidableEq

instance : IntervalType Demo.U8 Sorted where
  start k := k.lo
  stop k := k.hi
  ofInterval i := if i.start ≤ i.stop then ⟨i.start, i.stop⟩ else ⟨i.stop, i.start⟩

/-- it meets the hypothesis `hw` of the C87 theorems … -/
theorem Sorted.faithful : FaithfulOnValid Demo.U8 Sorted := fun i hi => by
  simp [ofInterval, start, stop, hi]

/-- … without being a `LawfulInterval` … -/
example : ¬ LawfulInterval Demo.U8 Sorted := fun h => by
  have := h.start_of (Demo.iv 6 5)
  revert this; decide

/-- … so everything but the gap queries works as for a plain `Interval` … -/
example : ∃ (ops : List (Op Demo.U8 Sorted Nat)) (ops' : List (Op Demo.U8 (Interval Demo.U8) Nat)),
    List.Forall₂ (Op.Corresponds toInterval id) ops ops' ∧
    (∀ q : Interval Demo.U8, .gapsUntrimmed q ∉ ops ∧ .gapsTrimmed q ∉ ops ∧ .containsInterval q ∉ ops) ∧
    (NoditMap.new.run ops').1.iter = [(Demo.iv 0 3, 1), (Demo.iv 5 20, 2)] ∧
    (NoditMap.new.run ops).1.iter = [(⟨Demo.u8 0, Demo.u8 3⟩, 1), (⟨Demo.u8 5, Demo.u8 20⟩, 2)] := by
  refine ⟨[.insertStrict ⟨Demo.u8 0, Demo.u8 9⟩ 1, .insertOverwrite ⟨Demo.u8 5, Demo.u8 20⟩ 2, .cut (Demo.iv 4 4)], _,
    .cons (.insertStrict _ _) (.cons (.insertOverwrite _ _) (.cons (.cut _) .nil)), ?_, ?_, ?_⟩
  · simp
  · decide
  · decide

/-- **C87**: the condition on gap queries is needed. With `Sorted` keys and the touching entries `0..=5` and `6..=9`, which cover
`2..=8` completely, `gaps_untrimmed(2..=8)` and `gaps_trimmed` report the "gap" `5..=6` and `contains_interval(2..=8)` is `false`:
the empty space between two touching entries is written as the invalid interval `6..=5`, converted with `From`, and only then
tested for validity. -/
theorem C87_gaps_need_invalid_to_stay_invalid :
    FaithfulOnValid Demo.U8 Sorted ∧
    ∃ s : NoditSet Sorted, s = NoditSet.new.run [.insertStrict ⟨Demo.u8 0, Demo.u8 5⟩, .insertStrict ⟨Demo.u8 6, Demo.u8 9⟩] ∧
      s.iter = [⟨Demo.u8 0, Demo.u8 5⟩, ⟨Demo.u8 6, Demo.u8 9⟩] ∧
      (∀ p, Demo.u8 2 ≤ p → p ≤ Demo.u8 8 → s.containsPoint p = .ok true) ∧
      s.gapsUntrimmed (Demo.iv 2 8) = .ok [⟨Demo.u8 5, Demo.u8 6⟩] ∧
      s.gapsTrimmed (Demo.iv 2 8) = .ok [⟨Demo.u8 5, Demo.u8 6⟩] ∧
      s.containsInterval (Demo.iv 2 8) = .ok false := by
  refine ⟨Sorted.faithful, _, rfl, by decide, ?_, by decide, by decide, by decide⟩
  intro p h1 h2
  obtain ⟨v, h0, h3⟩ := p
  replace h1 : 2 ≤ v := h1
  replace h2 : v ≤ 8 := h2
  have : v = 2 ∨ v = 3 ∨ v = 4 ∨ v = 5 ∨ v = 6 ∨ v = 7 ∨ v = 8 := by omega
  rcases this with rfl | rfl | rfl | rfl | rfl | rfl | rfl <;> rfl
end
end Nodit
