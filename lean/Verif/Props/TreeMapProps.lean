import Verif.TreeMap
import Verif.Props.TreeProps
import Verif.Props.GqditProps
import Verif.Props.ZosditProps
/-!
# C91: whole histories on trees

The functions of `Verif/TreeMap.lean` give what the functions over lists give, whatever shapes the trees take on the way.
-/
set_option linter.unusedSectionVars false
namespace Nodit
open Spec PointType BTree

/-! ## First and last entry -/
namespace BTree
variable {α : Type}

mutual
theorem Tree.first_eq (t : Tree α) : t.first = t.toList.head? := by
  match t with
  | .empty => rfl
  | .node child rest => rw [Tree.first, Tree.toList, List.head?_append, child.first_eq, rest.firstEntry_eq]
theorem Edges.firstEntry_eq (r : Edges α) : r.firstEntry = r.toList.head? := by
  match r with
  | .nil => rfl
  | .cons e _ _ => simp [Edges.firstEntry, Edges.toList]
end

mutual
theorem Tree.last_eq (t : Tree α) : t.last = t.toList.getLast? := by
  match t with
  | .empty => rfl
  | .node child rest => rw [Tree.last, Tree.toList, rest.lastIn_eq, child.last_eq, List.getLast?_append]
theorem Edges.lastIn_eq (r : Edges α) (acc : Option α) : r.lastIn acc = (r.toList.getLast?).or acc := by
  match r with
  | .nil => rfl
  | .cons e child rest =>
    rw [Edges.lastIn, rest.lastIn_eq, child.last_eq, Edges.toList, ← List.singleton_append, List.getLast?_append, List.getLast?_append]
    cases rest.toList.getLast? <;> cases child.toList.getLast? <;> simp
end

mutual
/-- a comparator that does not panic on the entries -/
theorem searchRes_eq {comp : α → Res Ordering} {comp' : α → Ordering} (t : Tree α) (h : ∀ x ∈ t.toList, comp x = .ok (comp' x)) :
    t.searchRes comp = .ok (t.search comp') := by
  match t with
  | .empty => rfl
  | .node first rest =>
    rw [Tree.toList] at h
    rw [Tree.searchRes, Tree.search, searchRes_eq first (fun x hx => h x (by simp [hx])),
      scanRes_eq rest (fun x hx => h x (by simp [hx]))]
theorem scanRes_eq {comp : α → Res Ordering} {comp' : α → Ordering} {below : Pos α} {left : List α} (r : Edges α)
    (h : ∀ x ∈ r.toList, comp x = .ok (comp' x)) : r.scanRes comp (.ok below) left = .ok (r.scan comp' below left) := by
  match r with
  | .nil => rfl
  | .cons e child rest =>
    rw [Edges.toList] at h
    rw [Edges.scanRes, Edges.scan, h e (by simp)]
    simp only [bind, Except.bind, pure, Except.pure]
    cases comp' e with
    | gt =>
      simp only
      rw [searchRes_eq child (fun x hx => h x (by simp [hx])), scanRes_eq rest (fun x hx => h x (by simp [hx]))]
    | eq => rfl
    | lt => rfl
end
end BTree

/-! ## `NoditMap` -/
namespace TreeNodit
variable {I K Q V : Type} [PointType I] [LawfulPoint I] [IntervalType I K] [LawfulInterval I K] [IntervalType I Q] {t : TreeNodit K V}
  {ρ : Shape (K × V)}

theorem content_inner : t.content.inner = t.tree.toList := rfl

theorem find_eq (h : WF t.tree.toList) {comp : K → Ordering} (hc : UsedComp comp) : t.find comp = BTree.find comp t.content.inner :=
  (C50_any_tree hc t.tree h).find.symm

theorem remove_eq (h : WF t.tree.toList) {comp : K → Ordering} (hc : UsedComp comp) {r : List (K × V) → Tree (K × V)}
    (hr : ∀ l, (r l).toList = l) : (t.remove r comp).content = ⟨BTree.remove comp t.content.inner⟩ := by
  unfold remove content
  rw [hr, (C50_any_tree hc t.tree h).remove]

theorem range_eq (h : WF t.tree.toList) (q : Q) :
    t.tree.range (onKey (overlappingComp (start q))) (onKey (overlappingComp (stop q))) =
      BTree.range (overlappingComp (start q)) (overlappingComp (stop q)) t.content.inner :=
  (C50_any_tree_range (.overlapping _) (.overlapping _) t.tree h).1.symm

theorem lower_eq (h : WF t.tree.toList) {comp : K → Ordering} (hc : UsedComp comp) :
    cursorAfter (t.tree.lowerEdge (onKey comp)) = lowerBound comp t.content.inner := (C50_any_tree hc t.tree h).lower.symm

theorem upper_eq (h : WF t.tree.toList) {comp : K → Ordering} (hc : UsedComp comp) :
    cursorBefore (t.tree.upperEdge (onKey comp)) = upperBound comp t.content.inner := (C50_any_tree hc t.tree h).upper.symm

theorem overlapping_eq (h : WF t.tree.toList) (q : Q) : t.overlapping q = t.content.overlapping q := by
  rw [overlapping, NoditMap.overlapping, range_eq h]

theorem overlaps_eq (h : WF t.tree.toList) (q : Q) : t.overlaps q = t.content.overlaps q := by
  rw [overlaps, NoditMap.overlaps, overlapping_eq h]

theorem getGapAtRaw_eq (h : WF t.tree.toList) (p : I) : t.getGapAtRaw p = t.content.getGapAtRaw p := by
  rw [getGapAtRaw, NoditMap.getGapAtRaw, lower_eq h (.overlapping _), upper_eq h (.overlapping _)]
  rfl

theorem getKeyValueAtPoint_eq (h : WF t.tree.toList) (p : I) : t.getKeyValueAtPoint p = t.content.getKeyValueAtPoint p := by
  rw [getKeyValueAtPoint, NoditMap.getKeyValueAtPoint, find_eq h (.overlapping _), getGapAtRaw_eq h]
  rfl

theorem getAtPoint_eq (h : WF t.tree.toList) (p : I) : t.getAtPoint p = t.content.getAtPoint p := by
  rw [getAtPoint, NoditMap.getAtPoint, getKeyValueAtPoint_eq h]
  rfl

theorem containsPoint_eq (h : WF t.tree.toList) (p : I) : t.containsPoint p = t.content.containsPoint p := by
  rw [containsPoint, NoditMap.containsPoint, getKeyValueAtPoint_eq h]
  rfl

theorem gapAt_eq (h : WF t.tree.toList) (p : I) : t.gapAt p = t.content.gapAt p := by
  rw [gapAt, NoditMap.gapAt, find_eq h (.overlapping _), getGapAtRaw_eq h]

theorem gapsUntrimmed_eq (h : WF t.tree.toList) (q : Q) : t.gapsUntrimmed q = t.content.gapsUntrimmed q := by
  rw [gapsUntrimmed, NoditMap.gapsUntrimmed, gapAt_eq h, gapAt_eq h, overlapping_eq h]
  rfl

theorem gapsTrimmed_eq (h : WF t.tree.toList) (q : Q) : t.gapsTrimmed q = t.content.gapsTrimmed q := by
  rw [gapsTrimmed, NoditMap.gapsTrimmed, gapAt_eq h, gapAt_eq h, overlapping_eq h]
  rfl

theorem containsInterval_eq (h : WF t.tree.toList) (q : Q) : t.containsInterval q = t.content.containsInterval q := by
  rw [containsInterval, NoditMap.containsInterval, gapsUntrimmed_eq h]

/-- the tree after a call, seen as a list -/
def seen {β : Type} (r : TreeNodit K V × β) : NoditMap K V × β := (r.1.content, r.2)

theorem removeOverlapping_eq (h : WF t.tree.toList) (hρ : ρ.Lawful) (q : Q) :
    (t.removeOverlapping ρ q).map seen = t.content.removeOverlapping q := by
  rw [removeOverlapping, NoditMap.removeOverlapping, lower_eq h (.overlapping _)]
  simp only [bind, Except.bind, pure, Except.pure]
  cases invalidIntervalPanic q with
  | error p => rfl
  | ok _ =>
    simp only
    cases NoditMap.removeLoop q (lowerBound (overlappingComp (start q)) t.content.inner).after with
    | error p => rfl
    | ok r => simp [Except.map, seen, content, hρ 0]

theorem cut_eq (h : WF t.tree.toList) (hρ : ρ.Lawful) (q : Q) : (t.cut ρ q).map seen = t.content.cut q := by
  rw [cut, NoditMap.cut, lower_eq h (.overlapping _)]
  simp only [bind, Except.bind, pure, Except.pure]
  cases invalidIntervalPanic q with
  | error p => rfl
  | ok _ =>
    simp only
    cases NoditMap.cutLoop q (lowerBound (overlappingComp (start q)) t.content.inner).after with
    | error p => rfl
    | ok r => simp [Except.map, seen, content, hρ 0]

theorem insertUnchecked_eq (h : WF t.tree.toList) {r : List (K × V) → Tree (K × V)} (hr : ∀ l, (r l).toList = l) (k : K) (v : V) :
    (t.insertUnchecked r k v).content = t.content.insertUnchecked k v := by
  unfold insertUnchecked content NoditMap.insertUnchecked
  rw [hr, (C50_any_tree (.starts k) t.tree h).insert]

theorem insertStrict_eq (h : WF t.tree.toList) (hρ : ρ.Lawful) (k : K) (v : V) :
    (t.insertStrict ρ k v).map seen = t.content.insertStrict k v := by
  rw [insertStrict, NoditMap.insertStrict, overlaps_eq h]
  simp only [bind, Except.bind, pure, Except.pure]
  cases invalidIntervalPanic k with
  | error p => rfl
  | ok _ =>
    simp only
    cases t.content.overlaps k with
    | error p => rfl
    | ok b => cases b <;> simp [Except.map, seen, insertUnchecked_eq h (hρ 0)]

theorem WF.sublist {l l' : List (K × V)} (h : WF l) (hs : l'.Sublist l) : WF l' :=
  ⟨fun e he => h.1 e (hs.subset he), h.2.sublist hs⟩

theorem remove_sublist {comp : K → Ordering} (l : List (K × V)) : (BTree.remove comp l).Sublist l := by
  induction l with
  | nil => exact List.Sublist.slnil
  | cons e l ih =>
    unfold BTree.remove
    split
    · exact ih.cons_cons _
    · exact List.sublist_cons_self _ _
    · exact List.Sublist.refl _

theorem removed_wf (h : WF t.tree.toList) {q : Q} (hρ : ρ.Lawful) {t' : TreeNodit K V} {out : List (K × V)}
    (hr : t.removeOverlapping ρ q = .ok (t', out)) : WF t'.tree.toList := by
  have he := removeOverlapping_eq h hρ q
  rw [hr] at he
  by_cases hq : Valid q
  · obtain ⟨m', out', h1, h2, -⟩ := NoditMap.spec_removeOverlapping (m := t.content) h hq
    rw [h1] at he
    have := congrArg (fun x => match x with | .ok a => a.1.inner | .error _ => []) he
    simp only [Except.map, seen] at this
    show WF t'.content.inner
    rw [this]
    exact h2
  · exfalso
    rw [removeOverlapping, NoditMap.bad_invalid hq] at hr
    cases hr

/-- closures given to `insert_merge_with_comps` that do the same on the tree and on its content -/
theorem insertMergeWithComps_eq (h : WF t.tree.toList) (hρ : ρ.Lawful) (k : K) (v : V) {gs ge : TreeNodit K V → V → Option K}
    {rs re : TreeNodit K V → V → TreeNodit K V} {gs' ge' : NoditMap K V → V → Option K} {rs' re' : NoditMap K V → V → NoditMap K V}
    (h1 : ∀ t : TreeNodit K V, WF t.tree.toList → gs t v = gs' t.content v) (h2 : ∀ t : TreeNodit K V, WF t.tree.toList → ge t v = ge' t.content v)
    (h3 : ∀ t : TreeNodit K V, WF t.tree.toList → (rs t v).content = rs' t.content v ∧ WF (rs t v).tree.toList)
    (h4 : ∀ t : TreeNodit K V, WF t.tree.toList → (re t v).content = re' t.content v ∧ WF (re t v).tree.toList) :
    (t.insertMergeWithComps ρ k v gs ge rs re).map seen = t.content.insertMergeWithComps k v gs' ge' rs' re' := by
  rw [insertMergeWithComps, NoditMap.insertMergeWithComps, ← removeOverlapping_eq h hρ, h1 t h, h2 t h]
  simp only [bind, Except.bind, pure, Except.pure]
  cases invalidIntervalPanic k with
  | error p => rfl
  | ok _ =>
    simp only
    rcases hr : t.removeOverlapping ρ k with p | ⟨t', out⟩
    · rfl
    · have hw := removed_wf h hρ hr
      obtain ⟨e1, w1⟩ := h3 t' hw
      obtain ⟨e2, w2⟩ := h4 _ w1
      simp only [Except.map, seen]
      rw [insertUnchecked_eq w2 (hρ 1), e2, e1]
      rfl

theorem remove_ok (hρ : ρ.Lawful) (n : Nat) {comp : K → Ordering} (hc : UsedComp comp) (t : TreeNodit K V) (h : WF t.tree.toList) :
    (t.remove (ρ n) comp).content = ⟨BTree.remove comp t.content.inner⟩ ∧ WF (t.remove (ρ n) comp).tree.toList := by
  have he := remove_eq h hc (hρ n)
  refine ⟨he, ?_⟩
  show WF (t.remove (ρ n) comp).content.inner
  rw [he]
  exact WF.sublist h (remove_sublist _)

theorem insertMergeTouching_eq (h : WF t.tree.toList) (hρ : ρ.Lawful) (k : K) (v : V) :
    (t.insertMergeTouching ρ k v).map seen = t.content.insertMergeTouching k v := by
  rw [insertMergeTouching, NoditMap.insertMergeTouching, overlaps_eq h,
    ← insertMergeWithComps_eq h hρ k v (gs := fun t _ => (t.find (touchingStartComp (start k))).map Prod.fst)
      (ge := fun t _ => (t.find (touchingEndComp (stop k))).map Prod.fst)
      (rs := fun t _ => t.remove (ρ 2) (touchingStartComp (start k))) (re := fun t _ => t.remove (ρ 3) (touchingEndComp (stop k)))
      (fun t h => by rw [find_eq h (.touchingStart _)]) (fun t h => by rw [find_eq h (.touchingEnd _)])
      (remove_ok hρ 2 (.touchingStart _)) (remove_ok hρ 3 (.touchingEnd _))]
  simp only [bind, Except.bind, pure, Except.pure]
  cases invalidIntervalPanic k with
  | error p => rfl
  | ok _ =>
    simp only
    cases t.content.overlaps k with
    | error p => rfl
    | ok b =>
      cases b
      · simp only [Bool.false_eq_true, if_false]
        generalize t.insertMergeWithComps ρ k v _ _ _ _ = r
        cases r <;> rfl
      · rfl

theorem getStartEq_eq [BEq V] (k : K) (v : V) (t : TreeNodit K V) (h : WF t.tree.toList) : getStartEq k t v = NoditMap.getStartEq k t.content v := by
  rw [getStartEq, NoditMap.getStartEq, find_eq h (.touchingStart _)]
theorem getEndEq_eq [BEq V] (k : K) (v : V) (t : TreeNodit K V) (h : WF t.tree.toList) : getEndEq k t v = NoditMap.getEndEq k t.content v := by
  rw [getEndEq, NoditMap.getEndEq, find_eq h (.touchingEnd _)]

theorem insertMergeTouchingIfValuesEqual_eq [BEq V] (h : WF t.tree.toList) (hρ : ρ.Lawful) (k : K) (v : V) :
    (t.insertMergeTouchingIfValuesEqual ρ k v).map seen = t.content.insertMergeTouchingIfValuesEqual k v := by
  rw [insertMergeTouchingIfValuesEqual, NoditMap.insertMergeTouchingIfValuesEqual, overlaps_eq h,
    ← insertMergeWithComps_eq h hρ k v (gs := getStartEq k) (ge := getEndEq k)
      (rs := fun t v => if (getStartEq k t v).isSome then t.remove (ρ 2) (touchingStartComp (start k)) else t)
      (re := fun t v => if (getEndEq k t v).isSome then t.remove (ρ 3) (touchingEndComp (stop k)) else t)
      (getStartEq_eq k v) (getEndEq_eq k v)
      (fun t h => by
        rw [getStartEq_eq k v t h]
        by_cases hb : (NoditMap.getStartEq k t.content v).isSome
        · rw [if_pos hb, if_pos hb]; exact remove_ok hρ 2 (.touchingStart _) t h
        · rw [if_neg hb, if_neg hb]; exact ⟨rfl, h⟩)
      (fun t h => by
        rw [getEndEq_eq k v t h]
        by_cases hb : (NoditMap.getEndEq k t.content v).isSome
        · rw [if_pos hb, if_pos hb]; exact remove_ok hρ 3 (.touchingEnd _) t h
        · rw [if_neg hb, if_neg hb]; exact ⟨rfl, h⟩)]
  simp only [bind, Except.bind, pure, Except.pure]
  cases invalidIntervalPanic k with
  | error p => rfl
  | ok _ =>
    simp only
    cases t.content.overlaps k with
    | error p => rfl
    | ok b =>
      cases b
      · simp only [Bool.false_eq_true, if_false]
        generalize t.insertMergeWithComps ρ k v _ _ _ _ = r
        cases r <;> rfl
      · rfl

theorem insertMergeOverlapping_eq (h : WF t.tree.toList) (hρ : ρ.Lawful) (k : K) (v : V) :
    (t.insertMergeOverlapping ρ k v).map seen = t.content.insertMergeOverlapping k v := by
  rw [insertMergeOverlapping, NoditMap.insertMergeOverlapping,
    ← insertMergeWithComps_eq h hρ k v (gs := fun t _ => (t.find (overlappingComp (start k))).map Prod.fst)
      (ge := fun t _ => (t.find (overlappingComp (stop k))).map Prod.fst) (rs := fun t _ => t) (re := fun t _ => t)
      (fun t h => by rw [find_eq h (.overlapping _)]) (fun t h => by rw [find_eq h (.overlapping _)])
      (fun t h => ⟨rfl, h⟩) (fun t h => ⟨rfl, h⟩)]
  simp only [bind, Except.bind]
  cases invalidIntervalPanic k <;> rfl

theorem insertMergeTouchingOrOverlapping_eq (h : WF t.tree.toList) (hρ : ρ.Lawful) (k : K) (v : V) :
    (t.insertMergeTouchingOrOverlapping ρ k v).map seen = t.content.insertMergeTouchingOrOverlapping k v := by
  rw [insertMergeTouchingOrOverlapping, NoditMap.insertMergeTouchingOrOverlapping,
    ← insertMergeWithComps_eq h hρ k v
      (gs := fun t _ => ((t.find (touchingStartComp (start k))).map Prod.fst).or ((t.find (overlappingComp (start k))).map Prod.fst))
      (ge := fun t _ => ((t.find (touchingEndComp (stop k))).map Prod.fst).or ((t.find (overlappingComp (stop k))).map Prod.fst))
      (rs := fun t _ => t.remove (ρ 2) (touchingStartComp (start k))) (re := fun t _ => t.remove (ρ 3) (touchingEndComp (stop k)))
      (fun t h => by rw [find_eq h (.touchingStart _), find_eq h (.overlapping _)])
      (fun t h => by rw [find_eq h (.touchingEnd _), find_eq h (.overlapping _)])
      (remove_ok hρ 2 (.touchingStart _)) (remove_ok hρ 3 (.touchingEnd _))]
  simp only [bind, Except.bind]
  cases invalidIntervalPanic k <;> rfl

theorem cut_wf (h : WF t.tree.toList) {q : Q} (hρ : ρ.Lawful) {t' : TreeNodit K V} {out : List (K × V)}
    (hr : t.cut ρ q = .ok (t', out)) : WF t'.tree.toList := by
  have he := cut_eq h hρ q
  rw [hr] at he
  by_cases hq : Valid q
  · obtain ⟨m', out', h1, h2, -⟩ := NoditMap.spec_cut (m := t.content) h hq
    rw [h1] at he
    have := congrArg (fun x => match x with | .ok a => a.1.inner | .error _ => []) he
    simp only [Except.map, seen] at this
    show WF t'.content.inner
    rw [this]
    exact h2
  · exfalso
    rw [cut, NoditMap.bad_invalid hq] at hr
    cases hr

theorem insertOverwrite_eq (h : WF t.tree.toList) (hρ : ρ.Lawful) (k : K) (v : V) :
    (t.insertOverwrite ρ k v).map seen = t.content.insertOverwrite k v := by
  rw [insertOverwrite, NoditMap.insertOverwrite, ← cut_eq h hρ]
  simp only [bind, Except.bind, pure, Except.pure]
  cases invalidIntervalPanic k with
  | error p => rfl
  | ok _ =>
    simp only
    rcases hr : t.cut ρ k with p | ⟨t', out⟩
    · rfl
    · simp only [Except.map, seen]
      rw [insertUnchecked_eq (cut_wf h hρ hr) (hρ 1)]

theorem drop_of_append {α : Type} {a b l : List α} (h : a ++ b = l) : l.drop a.length = b := by
  rw [← h, List.drop_left']
  rfl

theorem overlappingMut_eq (h : WF t.tree.toList) (hρ : ρ.Lawful) (q : Q) (f : K → V → V) :
    (t.overlappingMut ρ q f).map content = t.content.overlappingMut q f := by
  rw [overlappingMut, NoditMap.overlappingMut]
  have hr := range_eq h q
  have hl := lower_eq h (.overlapping (start q))
  simp only [bind, Except.bind, pure, Except.pure]
  cases invalidIntervalPanic q with
  | error p => rfl
  | ok _ =>
    simp only [Except.map]
    rw [hr]
    rcases he : t.tree.lowerEdge (onKey (overlappingComp (start q))) with ⟨b, a⟩
    rw [he, cursorAfter, lowerBound] at hl
    injection hl with h1 h2
    subst h1 h2
    simp only [content, hρ 0]
    congr 2
    unfold BTree.rangeMut BTree.range
    simp only
    congr 1
    generalize (t.tree.toList.dropWhile (fun e => overlappingComp (start q) e.1 == .gt)) = l
    have := List.takeWhile_append_dropWhile (p := fun e : K × V => overlappingComp (stop q) e.1 != .lt) (l := l)
    exact drop_of_append this

theorem getAtPointMut_eq (h : WF t.tree.toList) (hρ : ρ.Lawful) (p : I) (f : V → V) :
    seen (t.getAtPointMut ρ p f) = t.content.getAtPointMut p f := by
  unfold seen getAtPointMut NoditMap.getAtPointMut
  rw [find_eq h (.overlapping _)]
  simp only [content, hρ 0]
  rw [(C50_any_tree (.overlapping p) t.tree h).modify]

/-! ### Histories -/

/-- One call on a tree; `ρ` says what shapes the tree takes on in it. (As `NoditMap.step`, `Verif/History.lean`.) -/
def step [BEq V] (ρ : Shape (K × V)) (t : TreeNodit K V) : Op I K V → Res (TreeNodit K V × Out K V)
  | .insertStrict k v => do let (t, r) ← t.insertStrict ρ k v; pure (t, .strict (NoditMap.errValue r))
  | .insertMergeTouching k v => do let (t, r) ← t.insertMergeTouching ρ k v; pure (t, .merge (NoditMap.errValue r))
  | .insertMergeTouchingIfValuesEqual k v => do
    let (t, r) ← t.insertMergeTouchingIfValuesEqual ρ k v; pure (t, .merge (NoditMap.errValue r))
  | .insertMergeOverlapping k v => do let (t, r) ← t.insertMergeOverlapping ρ k v; pure (t, .key r)
  | .insertMergeTouchingOrOverlapping k v => do
    let (t, r) ← t.insertMergeTouchingOrOverlapping ρ k v; pure (t, .key r)
  | .insertOverwrite k v => do let (t, r) ← t.insertOverwrite ρ k v; pure (t, .entries r)
  | .cut q => do let (t, r) ← t.cut ρ q; pure (t, .entries r)
  | .removeOverlapping q => do let (t, r) ← t.removeOverlapping ρ q; pure (t, .entries r)
  | .overlapping q => do pure (t, .entries (← t.overlapping q))
  | .overlaps q => do pure (t, .bool (← t.overlaps q))
  | .gapsUntrimmed q => do pure (t, .keys (← t.gapsUntrimmed q))
  | .gapsTrimmed q => do pure (t, .keys (← t.gapsTrimmed q))
  | .containsInterval q => do pure (t, .bool (← t.containsInterval q))
  | .overlappingMut q f => do pure (← t.overlappingMut ρ q f, .unit)
  | .getAtPoint p => do pure (t, .optValue (← t.getAtPoint p))
  | .getKeyValueAtPoint p => do pure (t, .lookup (← t.getKeyValueAtPoint p))
  | .containsPoint p => do pure (t, .bool (← t.containsPoint p))
  | .getAtPointMut p f => let (t, r) := t.getAtPointMut ρ p f; pure (t, .optValue r)
  | .iterMut f => pure (t.iterMut ρ f, .unit)
  | .iter => pure (t, .entries t.tree.toList)
  | .len => pure (t, .nat t.tree.toList.length)
  | .isEmpty => pure (t, .bool t.tree.first.isNone)
  | .firstKeyValue => pure (t, .optEntry t.tree.first)
  | .lastKeyValue => pure (t, .optEntry t.tree.last)

/-- A sequence of calls on a tree; `ρ i` for the `i`-th call. A call that panics leaves the tree as it was. -/
def run [BEq V] (ρ : Nat → Shape (K × V)) (t : TreeNodit K V) : List (Op I K V) → TreeNodit K V × List (Res (Out K V))
  | [] => (t, [])
  | op :: ops =>
    match t.step (ρ 0) op with
    | .error p => let (t', os) := run (fun i => ρ (i + 1)) t ops; (t', .error p :: os)
    | .ok (t1, o) => let (t', os) := run (fun i => ρ (i + 1)) t1 ops; (t', .ok o :: os)

theorem bind_seen {β γ : Type} {x : Res (TreeNodit K V × β)} {y : Res (NoditMap K V × β)} (h : x.map seen = y) (g : β → γ) :
    (x >>= fun r => pure (r.1, g r.2)).map seen = (y >>= fun r => pure (r.1, g r.2)) := by
  subst h
  cases x <;> rfl

theorem bind_read {β γ : Type} {x y : Res β} (h : x = y) (g : β → γ) :
    (x >>= fun r => pure (t, g r)).map seen = (y >>= fun r => pure (t.content, g r)) := by
  subst h
  cases x <;> rfl

/-- one call: same result, same content -/
theorem step_eq [BEq V] (h : WF t.tree.toList) (hρ : ρ.Lawful) (op : Op I K V) : (t.step ρ op).map seen = t.content.step op := by
  cases op with
  | insertStrict k v => exact bind_seen (insertStrict_eq h hρ k v) (fun r => Out.strict (NoditMap.errValue r))
  | insertMergeTouching k v => exact bind_seen (insertMergeTouching_eq h hρ k v) (fun r => Out.merge (NoditMap.errValue r))
  | insertMergeTouchingIfValuesEqual k v =>
    exact bind_seen (insertMergeTouchingIfValuesEqual_eq h hρ k v) (fun r => Out.merge (NoditMap.errValue r))
  | insertMergeOverlapping k v => exact bind_seen (insertMergeOverlapping_eq h hρ k v) Out.key
  | insertMergeTouchingOrOverlapping k v => exact bind_seen (insertMergeTouchingOrOverlapping_eq h hρ k v) Out.key
  | insertOverwrite k v => exact bind_seen (insertOverwrite_eq h hρ k v) Out.entries
  | cut q => exact bind_seen (cut_eq h hρ q) Out.entries
  | removeOverlapping q => exact bind_seen (removeOverlapping_eq h hρ q) Out.entries
  | overlapping q => exact bind_read (overlapping_eq h q) Out.entries
  | overlaps q => exact bind_read (overlaps_eq h q) Out.bool
  | gapsUntrimmed q => exact bind_read (gapsUntrimmed_eq h q) Out.keys
  | gapsTrimmed q => exact bind_read (gapsTrimmed_eq h q) Out.keys
  | containsInterval q => exact bind_read (containsInterval_eq h q) Out.bool
  | overlappingMut q f =>
    have := overlappingMut_eq h hρ q f
    simp only [step, NoditMap.step, ← this]
    cases t.overlappingMut ρ q f <;> rfl
  | getAtPoint p => exact bind_read (getAtPoint_eq h p) Out.optValue
  | getKeyValueAtPoint p => exact bind_read (getKeyValueAtPoint_eq h p) Out.lookup
  | containsPoint p => exact bind_read (containsPoint_eq h p) Out.bool
  | getAtPointMut p f =>
    have := getAtPointMut_eq h hρ p f
    simp only [step, NoditMap.step, ← this]
    rfl
  | iterMut f =>
    simp only [step, NoditMap.step, pure, Except.pure, Except.map, seen, iterMut, content, NoditMap.iterMut, hρ 0]
  | iter => rfl
  | len => rfl
  | isEmpty =>
    simp only [step, NoditMap.step, pure, Except.pure, Except.map, seen, NoditMap.isEmpty, content, Tree.first_eq]
    cases t.tree.toList <;> rfl
  | firstKeyValue => simp only [step, NoditMap.step, pure, Except.pure, Except.map, seen, NoditMap.firstKeyValue, content, Tree.first_eq]
  | lastKeyValue => simp only [step, NoditMap.step, pure, Except.pure, Except.map, seen, NoditMap.lastKeyValue, content, Tree.last_eq]

theorem run_eq [BEq V] (ops : List (Op I K V)) {t : TreeNodit K V} (h : WF t.tree.toList) {ρ : Nat → Shape (K × V)} (hρ : ∀ i, (ρ i).Lawful) :
    (t.run ρ ops).1.content = (t.content.run ops).1 ∧ (t.run ρ ops).2 = (t.content.run ops).2 := by
  induction ops generalizing t ρ with
  | nil => exact ⟨rfl, rfl⟩
  | cons op ops ih =>
    have he := step_eq h (hρ 0) op
    rcases hs : t.step (ρ 0) op with p | ⟨t1, o⟩
    · rw [hs] at he
      obtain ⟨h1, h2⟩ := ih h (fun i => hρ (i + 1))
      simp only [run, NoditMap.run, hs, ← he, Except.map]
      exact ⟨h1, by rw [h2]⟩
    · rw [hs] at he
      have hw : WF t1.tree.toList := by
        rcases NoditMap.step_refines (m := t.content) h op with ⟨-, h2⟩ | ⟨-, m', o', h2, h3, -⟩
        · rw [h2] at he; cases he
        · rw [h2] at he
          injection he with he
          have : t1.content = m' := congrArg Prod.fst he
          show WF t1.content.iter
          rw [this]; exact h3
      obtain ⟨h1, h2⟩ := ih hw (fun i => hρ (i + 1))
      simp only [run, NoditMap.run, hs, ← he, Except.map, seen]
      exact ⟨h1, by rw [h2]⟩
end TreeNodit

/-! ## `Gqdit` -/
namespace TreeGqdit
variable {I K Q D : Type} [PointType I] [LawfulPoint I] [IntervalType I K] [LawfulInterval I K] [IntervalType I Q] [DecidableEq D]
  {g : TreeGqdit K D}

/-- the result of a call that does not panic is well-formed -/
theorem merged_wf {V : Type} [BEq V] {t t' : TreeNodit K V} (h : WF t.tree.toList) {ρ : Shape (K × V)} (hρ : ρ.Lawful) {k : K} {v : V}
    {r : Except (OverlapError V) K} (hr : t.insertMergeTouchingIfValuesEqual ρ k v = .ok (t', r)) : WF t'.tree.toList := by
  have he := TreeNodit.insertMergeTouchingIfValuesEqual_eq h hρ k v
  rw [hr] at he
  by_cases hk : Valid k
  · obtain ⟨m', r', h1, h2, -⟩ := NoditMap.spec_insertMergeTouchingIfValuesEqual (m := t.content) h hk v
    rw [h1] at he
    injection he with he
    have : t'.content = m' := congrArg Prod.fst he
    show WF t'.content.iter
    rw [this]; exact h2
  · exfalso
    rw [NoditMap.panic_insertMergeTouchingIfValuesEqual hk] at he
    cases he

theorem putBack_eq (f : Finset D → Finset D) (l : List (K × Finset D)) {m : TreeNodit K (Finset D)} (h : WF m.tree.toList)
    {ρ : Nat → Shape (K × Finset D)} (hρ : ∀ i, (ρ i).Lawful) :
    (putBack ρ f m l).map TreeNodit.content = Gqdit.putBack f m.content l ∧ ∀ m', putBack ρ f m l = .ok m' → WF m'.tree.toList := by
  induction l generalizing m ρ with
  | nil => exact ⟨rfl, fun m' hm => by injection hm with hm; exact hm ▸ h⟩
  | cons e l ih =>
    obtain ⟨k, ids⟩ := e
    rw [putBack, Gqdit.putBack, ← TreeNodit.insertMergeTouchingIfValuesEqual_eq h (hρ 0)]
    simp only [bind, Except.bind]
    rcases hr : m.insertMergeTouchingIfValuesEqual (ρ 0) k (f ids) with p | ⟨m', r | r⟩
    · exact ⟨rfl, fun m' hm => by cases hm⟩
    · exact ⟨rfl, fun m' hm => by cases hm⟩
    · exact ih (merged_wf h (hρ 0) hr) (fun i => hρ (i + 1))

theorem overlapping_ctx (h : WF g.inner.tree.toList) (q : Q) : g.inner.overlapping q = g.content.inner.overlapping q :=
  TreeNodit.overlapping_eq h q

theorem gapsNoIdentifier_eq (h : WF g.inner.tree.toList) (q : Q) : g.gapsNoIdentifier q = g.content.gapsNoIdentifier q := by
  rw [gapsNoIdentifier, Gqdit.gapsNoIdentifier, overlapping_ctx h]

theorem expandRight_eq (h : WF g.inner.tree.toList) (d : D) (p : I) : g.expandGapsAtPointRight d p = g.content.expandGapsAtPointRight d p := by
  unfold expandGapsAtPointRight Gqdit.expandGapsAtPointRight
  simp only [overlapping_ctx h]

theorem expandLeft_eq (h : WF g.inner.tree.toList) (d : D) (p : I) : g.expandGapsAtPointLeft d p = g.content.expandGapsAtPointLeft d p := by
  unfold expandGapsAtPointLeft Gqdit.expandGapsAtPointLeft
  simp only [overlapping_ctx h]

theorem gapsWithIdentifier_eq (h : WF g.inner.tree.toList) (d : D) (q : Q) : g.gapsWithIdentifier d q = g.content.gapsWithIdentifier d q := by
  unfold gapsWithIdentifier Gqdit.gapsWithIdentifier
  simp only [overlapping_ctx h, expandRight_eq h, expandLeft_eq h]
  rfl

theorem identifiersAtPoint_eq (h : WF g.inner.tree.toList) (p : I) : g.identifiersAtPoint p = g.content.identifiersAtPoint p := by
  rw [identifiersAtPoint, Gqdit.identifiersAtPoint, TreeNodit.getAtPoint_eq h]
  rfl

/-- the common part of the three changing calls -/
theorem cutPut_eq (h : WF g.inner.tree.toList) {ρ : Nat → Shape (K × Finset D)} (hρ : ∀ i, (ρ i).Lawful) (f : Finset D → Finset D) (q : Q) :
    ((g.inner.cut (ρ 0) q >>= fun r => putBack (fun i => ρ (i + 1)) f r.1 r.2 >>= fun m => pure (⟨m⟩ : TreeGqdit K D)).map content =
      (g.content.inner.cut q >>= fun r => Gqdit.putBack f r.1 r.2 >>= fun m => pure (⟨m⟩ : Gqdit K D))) ∧
    ∀ g', (g.inner.cut (ρ 0) q >>= fun r => putBack (fun i => ρ (i + 1)) f r.1 r.2 >>= fun m => pure (⟨m⟩ : TreeGqdit K D)) = .ok g' →
      WF g'.inner.tree.toList := by
  have hc := TreeNodit.cut_eq h (hρ 0) q
  have hc' : g.content.inner = g.inner.content := rfl
  rw [hc', ← hc]
  simp only [bind, Except.bind, pure, Except.pure]
  rcases hr : g.inner.cut (ρ 0) q with p | ⟨m, l⟩
  · exact ⟨rfl, fun g' hg => by cases hg⟩
  · obtain ⟨h1, h2⟩ := putBack_eq f l (TreeNodit.cut_wf h (hρ 0) hr) (fun i => hρ (i + 1))
    simp only [Except.map, TreeNodit.seen] at h1 ⊢
    rw [← h1]
    rcases hp : putBack (fun i => ρ (i + 1)) f m l with p | m'
    · exact ⟨rfl, fun g' hg => by cases hg⟩
    · exact ⟨rfl, fun g' hg => by injection hg with hg; subst hg; exact h2 _ hp⟩

theorem cutWithIdentifiers_eq (h : WF g.inner.tree.toList) {ρ : Nat → Shape (K × Finset D)} (hρ : ∀ i, (ρ i).Lawful) (ids : Finset D) (q : Q) :
    (g.cutWithIdentifiers ρ ids q).map content = g.content.cutWithIdentifiers ids q ∧
      ∀ g', g.cutWithIdentifiers ρ ids q = .ok g' → WF g'.inner.tree.toList := by
  have := cutPut_eq h hρ (fun i => i.filter (fun i => i ∉ ids)) q
  unfold cutWithIdentifiers Gqdit.cutWithIdentifiers
  cases invalidIntervalPanic q with
  | error p => exact ⟨rfl, fun g' hg => by cases hg⟩
  | ok _ =>
    by_cases hi : ids = ∅
    · simp only [hi, if_true]
      exact ⟨rfl, fun g' hg => by injection hg with hg; exact hg ▸ h⟩
    · simp only [hi, if_false]
      exact this

theorem cutAllIdentifiers_eq (h : WF g.inner.tree.toList) {ρ : Nat → Shape (K × Finset D)} (hρ : ∀ i, (ρ i).Lawful) (q : Q) :
    (g.cutAllIdentifiers ρ q).map content = g.content.cutAllIdentifiers q ∧
      ∀ g', g.cutAllIdentifiers ρ q = .ok g' → WF g'.inner.tree.toList := by
  have := cutPut_eq h hρ (fun _ => ∅) q
  unfold cutAllIdentifiers Gqdit.cutAllIdentifiers
  cases invalidIntervalPanic q with
  | error p => exact ⟨rfl, fun g' hg => by cases hg⟩
  | ok _ => exact this

theorem insert_eq (h : WF g.inner.tree.toList) {ρ : Nat → Shape (K × Finset D)} (hρ : ∀ i, (ρ i).Lawful) (ids : Finset D) (k : K) :
    (g.insert ρ ids k).map content = g.content.insert ids k ∧
      ∀ g', g.insert ρ ids k = .ok g' → WF g'.inner.tree.toList := by
  have := cutPut_eq h hρ (fun i => i ∪ ids) k
  unfold insert Gqdit.insert
  cases invalidIntervalPanic k with
  | error p => exact ⟨rfl, fun g' hg => by cases hg⟩
  | ok _ =>
    by_cases hi : ids = ∅
    · simp only [hi, if_true]
      exact ⟨rfl, fun g' hg => by injection hg with hg; exact hg ▸ h⟩
    · simp only [hi, if_false]
      exact this

theorem insertAll_eq (l : List (K × Finset D)) {g : TreeGqdit K D} (h : WF g.inner.tree.toList) {ρ : Nat → Nat → Shape (K × Finset D)}
    (hρ : ∀ i j, (ρ i j).Lawful) :
    (g.insertAll ρ l).map content = g.content.insertAll l ∧ ∀ g', g.insertAll ρ l = .ok g' → WF g'.inner.tree.toList := by
  induction l generalizing g ρ with
  | nil => exact ⟨rfl, fun g' hg => by injection hg with hg; exact hg ▸ h⟩
  | cons e l ih =>
    obtain ⟨k, ids⟩ := e
    obtain ⟨h1, h2⟩ := insert_eq h (hρ 0) ids k
    rw [insertAll, Gqdit.insertAll, ← h1]
    simp only [bind, Except.bind]
    rcases hr : g.insert (ρ 0) ids k with p | g'
    · exact ⟨rfl, fun g' hg => by cases hg⟩
    · exact ih (h2 g' hr) (fun i => hρ (i + 1))

theorem append_eq {o : TreeGqdit K D} (h : WF g.inner.tree.toList) (ho : WF o.inner.tree.toList) {ρ : Nat → Nat → Shape (K × Finset D)}
    (hρ : ∀ i j, (ρ i j).Lawful) {ρ' : Shape (K × Finset D)} (hρ' : ρ'.Lawful) :
    (g.append ρ ρ' o).map (fun r => (r.1.content, r.2.content)) = g.content.append o.content ∧
      ∀ r, g.append ρ ρ' o = .ok r → WF r.1.inner.tree.toList ∧ WF r.2.inner.tree.toList := by
  unfold append Gqdit.append
  rcases (uu : Res (Interval I)) with p | full
  · exact ⟨rfl, fun r hr => by cases hr⟩
  · have h1 := TreeNodit.removeOverlapping_eq ho hρ' full
    have hc' : o.content.inner = o.inner.content := rfl
    rw [hc']
    simp only [bind, Except.bind, pure, Except.pure]
    rw [← h1]
    rcases hr : o.inner.removeOverlapping ρ' full with p | ⟨oi, l⟩
    · exact ⟨rfl, fun r hr => by cases hr⟩
    · obtain ⟨h2, h3⟩ := insertAll_eq l h hρ
      simp only [Except.map, TreeNodit.seen] at h2 ⊢
      rw [← h2]
      rcases hi : g.insertAll ρ l with p | g'
      · exact ⟨rfl, fun r hr => by cases hr⟩
      · exact ⟨rfl, fun r hr' => by injection hr' with hr'; subst hr'; exact ⟨h3 _ hi, TreeNodit.removed_wf ho hρ' hr⟩⟩

theorem new_eq {ρ : Shape (K × Finset D)} (hρ : ρ.Lawful) :
    (new ρ : Res (TreeGqdit K D)).map content = Gqdit.new ∧ ∀ g : TreeGqdit K D, new ρ = .ok g → WF g.inner.tree.toList := by
  unfold new Gqdit.new
  rcases (uu : Res (Interval I)) with p | full
  · exact ⟨rfl, fun r hr => by cases hr⟩
  · have hn : WF (TreeNodit.new : TreeNodit K (Finset D)).tree.toList := ⟨by simp [TreeNodit.new, Tree.toList], by simp [TreeNodit.new, Tree.toList]⟩
    have h1 := TreeNodit.insertStrict_eq hn hρ (ofInterval full : K) (∅ : Finset D)
    have hc : (TreeNodit.new : TreeNodit K (Finset D)).content = NoditMap.new := rfl
    rw [hc] at h1
    simp only [bind, Except.bind, pure, Except.pure]
    rw [← h1]
    rcases hr : (TreeNodit.new : TreeNodit K (Finset D)).insertStrict ρ (ofInterval full : K) (∅ : Finset D) with p | ⟨t, r | r⟩
    · exact ⟨rfl, fun r hr => by cases hr⟩
    · exact ⟨rfl, fun r hr => by cases hr⟩
    · refine ⟨rfl, fun g hg => ?_⟩
      injection hg with hg
      subst hg
      rw [hr] at h1
      by_cases hk : Valid (ofInterval full : K)
      · obtain ⟨m', r', h2, h3, -⟩ := NoditMap.spec_insertStrict (m := NoditMap.new) (V := Finset D) hn hk ∅
        rw [h2] at h1
        injection h1 with h1
        have : t.content = m' := congrArg Prod.fst h1
        show WF t.content.iter
        rw [this]; exact h3
      · rw [NoditMap.panic_insertStrict hk] at h1
        cases h1

/-- The `Gqdit` a history leads to (as `Gqdit.eval`, `Verif/History.lean`), over trees; `ρ` is told where in the history the call is. -/
def eval (ρ : List Bool → Nat → Nat → Shape (K × Finset D)) : GqHist I K D → Res (TreeGqdit K D)
  | .new => new (ρ [] 0 0)
  | .insert g ids k => do (← eval (fun w => ρ (false :: w)) g).insert (ρ [] 0) ids k
  | .cutWithIdentifiers g ids q => do (← eval (fun w => ρ (false :: w)) g).cutWithIdentifiers (ρ [] 0) ids q
  | .cutAllIdentifiers g q => do (← eval (fun w => ρ (false :: w)) g).cutAllIdentifiers (ρ [] 0) q
  | .append g other => do
    let g ← eval (fun w => ρ (false :: w)) g
    let other ← eval (fun w => ρ (true :: w)) other
    let (g, _) ← g.append (ρ []) (ρ [true] 0 0) other
    pure g

theorem eval_eq (hist : GqHist I K D) {ρ : List Bool → Nat → Nat → Shape (K × Finset D)} (hρ : ∀ w i j, (ρ w i j).Lawful) :
    (eval ρ hist).map content = Gqdit.eval hist ∧ ∀ g, eval ρ hist = .ok g → WF g.inner.tree.toList := by
  induction hist generalizing ρ with
  | new => exact new_eq (hρ [] 0 0)
  | insert h ids k ih =>
    obtain ⟨h1, h2⟩ := ih (ρ := fun w => ρ (false :: w)) (fun w => hρ _)
    rw [eval, Gqdit.eval, ← h1]
    rcases hr : eval (fun w => ρ (false :: w)) h with p | g
    · exact ⟨rfl, fun r hr => by cases hr⟩
    · exact insert_eq (h2 g hr) (hρ [] 0) ids k
  | cutWithIdentifiers h ids q ih =>
    obtain ⟨h1, h2⟩ := ih (ρ := fun w => ρ (false :: w)) (fun w => hρ _)
    rw [eval, Gqdit.eval, ← h1]
    rcases hr : eval (fun w => ρ (false :: w)) h with p | g
    · exact ⟨rfl, fun r hr => by cases hr⟩
    · exact cutWithIdentifiers_eq (h2 g hr) (hρ [] 0) ids q
  | cutAllIdentifiers h q ih =>
    obtain ⟨h1, h2⟩ := ih (ρ := fun w => ρ (false :: w)) (fun w => hρ _)
    rw [eval, Gqdit.eval, ← h1]
    rcases hr : eval (fun w => ρ (false :: w)) h with p | g
    · exact ⟨rfl, fun r hr => by cases hr⟩
    · exact cutAllIdentifiers_eq (h2 g hr) (hρ [] 0) q
  | append h o ih iho =>
    obtain ⟨h1, h2⟩ := ih (ρ := fun w => ρ (false :: w)) (fun w => hρ _)
    obtain ⟨h3, h4⟩ := iho (ρ := fun w => ρ (true :: w)) (fun w => hρ _)
    rw [eval, Gqdit.eval, ← h1, ← h3]
    rcases hr : eval (fun w => ρ (false :: w)) h with p | g
    · exact ⟨rfl, fun r hr => by cases hr⟩
    · rcases hr' : eval (fun w => ρ (true :: w)) o with p | g'
      · exact ⟨rfl, fun r hr => by cases hr⟩
      · obtain ⟨h5, h6⟩ := append_eq (h2 g hr) (h4 g' hr') (hρ []) (hρ [true] 0 0)
        simp only [bind, Except.bind, pure, Except.pure, Except.map] at h5 ⊢
        rw [← h5]
        rcases ha : g.append (ρ []) (ρ [true] 0 0) g' with p | ⟨a, b⟩
        · exact ⟨rfl, fun r hr => by cases hr⟩
        · exact ⟨rfl, fun r hr => by injection hr with hr; subst hr; exact (h6 _ ha).1⟩
end TreeGqdit

/-! ## `ZosditMap` -/
namespace TreeZosdit
open ZosditMap
variable {I K Q V : Type} [PointType I] [LawfulPoint I] [IntervalType I K] [LawfulInterval I K] [IntervalType I Q] {t : TreeZosdit K V}
  {ρ : Shape (K × List V)}

theorem agrees_of (h : ZInv t.tree.toList) {comp : K → Ordering} (hc : ZUsedComp comp) : Agrees t.tree comp := agrees t.tree (zused_mono hc h)

theorem range_eq (h : ZInv t.tree.toList) {lower upper : K → Ordering} (hl : ZUsedComp lower) (hu : ZUsedComp upper) :
    t.tree.range (onKey lower) (onKey upper) = BTree.range lower upper t.content.inner :=
  range_ok t.tree (zused_mono hl h) (zused_mono hu h)

theorem firstKeyValue_eq : t.firstKeyValue = t.content.firstKeyValue := by
  rw [firstKeyValue, ZosditMap.firstKeyValue, Tree.first_eq]; rfl

theorem lastKeyValue_eq : t.lastKeyValue = t.content.lastKeyValue := by
  rw [lastKeyValue, ZosditMap.lastKeyValue, Tree.last_eq]; rfl

theorem overlapping_eq (h : ZInv t.tree.toList) (q : Q) : t.overlapping q = t.content.overlapping q := by
  rw [overlapping, ZosditMap.overlapping, range_eq h (.inclusiveLt _) (.inclusiveGt _)]

theorem isZeroOverlap_eq (h : ZInv t.tree.toList) (q : Q) : t.isZeroOverlap q = t.content.isZeroOverlap q := by
  rw [isZeroOverlap, ZosditMap.isZeroOverlap, range_eq h (.exclusiveGt _) (.exclusiveLt _)]

theorem lastAtPointCursor_eq (h : ZInv t.tree.toList) (p : I) : t.lastAtPointCursor p = t.content.lastAtPointCursor p := by
  rw [lastAtPointCursor, ZosditMap.lastAtPointCursor, ← (agrees_of h (.exclusiveGt p)).lower]; rfl

theorem getLastValueAtPoint_eq (h : ZInv t.tree.toList) (p : I) : t.getLastValueAtPoint p = t.content.getLastValueAtPoint p := by
  rw [getLastValueAtPoint, ZosditMap.getLastValueAtPoint, lastAtPointCursor_eq h]

/-- the tree after a call, seen as a list -/
def seen {β : Type} (r : TreeZosdit K V × β) : ZosditMap K V × β := (r.1.content, r.2)

theorem removeLastValueAtPoint_eq (h : ZInv t.tree.toList) (hρ : ρ.Lawful) (p : I) :
    (t.removeLastValueAtPoint ρ p).map seen = t.content.removeLastValueAtPoint p := by
  rw [removeLastValueAtPoint, ZosditMap.removeLastValueAtPoint, lastAtPointCursor_eq h]
  simp only
  rcases (t.content.lastAtPointCursor p).after with _ | ⟨⟨key, value⟩, rest⟩
  · rfl
  · by_cases hb : InclusiveInterval.containsPoint key p
    · simp only [hb, if_true, bind, Except.bind, pure, Except.pure]
      cases unwrap value.getLast? with
      | error p => rfl
      | ok v => simp only [Except.map, seen, content, hρ 0]
    · simp only [hb, Bool.false_eq_true, if_false, pure, Except.pure]; rfl

theorem cut_eq (h : ZInv t.tree.toList) (hρ : ρ.Lawful) (q : Q) : (t.cut ρ q).map seen = t.content.cut q := by
  rw [cut, ZosditMap.cut]
  have hu : cursorBefore (t.tree.upperEdge (onKey (exclusiveComp (start q) .lt))) = upperBound (exclusiveComp (start q) .lt) t.content.inner :=
    (agrees_of h (.exclusiveLt _)).upper.symm
  rw [hu]
  simp only [bind, Except.bind, pure, Except.pure]
  cases invalidIntervalPanic q with
  | error p => rfl
  | ok _ =>
    simp only
    generalize (if (upperBound (exclusiveComp (start q) .lt) t.content.inner).key.isNone then
      (upperBound (exclusiveComp (start q) .lt) t.content.inner).moveNext else upperBound (exclusiveComp (start q) .lt) t.content.inner) = c
    rw [show t.content.len = t.len from rfl]
    cases ZosditMap.cutLoop q t.len c.after with
    | error p => rfl
    | ok r => simp only [Except.map, seen, content, hρ 0]

theorem insertStrictBack_eq (h : ZInv t.tree.toList) (hρ : ρ.Lawful) (k : K) (v : V) :
    ∃ pick, (t.insertStrictBack ρ k v).map seen = t.content.insertStrictBack k v pick := by
  rw [insertStrictBack]
  by_cases hk : Valid k
  · obtain ⟨b, hb, -⟩ := isZeroOverlap_ok (m := t.content) h (q := k) (valid_iff.1 hk)
    have hp : invalidIntervalPanic k = .ok () := invalidIntervalPanic_ok (valid_iff.1 hk)
    cases b with
    | false =>
      refine ⟨0, ?_⟩
      rw [ZosditMap.insertStrictBack, isZeroOverlap_eq h, hb, hp]
      rfl
    | true =>
      obtain ⟨h1, pick, h2⟩ := zinsert_tree (m := t.content) h t.tree rfl hk v hb
      refine ⟨pick, ?_⟩
      rw [h2, isZeroOverlap_eq h, hb, hp]
      simp only [bind, Except.bind, pure, Except.pure, Bool.not_true, Bool.false_eq_true, if_false]
      rw [searchRes_eq (comp' := insertComp' k) t.tree h1]
      simp only [Except.map, seen, content, hρ 0]
      cases t.tree.search (insertComp' k) <;> rfl
  · refine ⟨0, ?_⟩
    rw [ZosditMap.insertStrictBack, NoditMap.bad_invalid hk]
    rfl

/-- One changing call on a tree (as `ZosditMap.step`); the tree decides where a value goes, the number in the call plays no role. -/
def step (ρ : Shape (K × List V)) (t : TreeZosdit K V) : ZOp I K V → Res (TreeZosdit K V × ZOut K V)
  | .insertStrictBack k v _ => do let (t, r) ← t.insertStrictBack ρ k v; pure (t, .strict (ZosditMap.errValue r))
  | .removeLastValueAtPoint p => do let (t, r) ← t.removeLastValueAtPoint ρ p; pure (t, .optValue r)
  | .cut q => do let (t, r) ← t.cut ρ q; pure (t, .entries r)

/-- A sequence of calls on a tree; `ρ i` for the `i`-th call. -/
def run (ρ : Nat → Shape (K × List V)) (t : TreeZosdit K V) : List (ZOp I K V) → TreeZosdit K V × List (Res (ZOut K V))
  | [] => (t, [])
  | op :: ops =>
    match t.step (ρ 0) op with
    | .error p => let (t', os) := run (fun i => ρ (i + 1)) t ops; (t', .error p :: os)
    | .ok (t1, o) => let (t', os) := run (fun i => ρ (i + 1)) t1 ops; (t', .ok o :: os)

/-- the call without the number that stands for the shape of the tree -/
def noPick : ZOp I K V → ZOp I K V
  | .insertStrictBack k v _ => .insertStrictBack k v 0
  | op => op

theorem bind_seen {β γ : Type} {x : Res (TreeZosdit K V × β)} {y : Res (ZosditMap K V × β)} (h : x.map seen = y) (g : β → γ) :
    (x >>= fun r => pure (r.1, g r.2)).map seen = (y >>= fun r => pure (r.1, g r.2)) := by
  subst h
  cases x <;> rfl

theorem step_eq (h : ZInv t.tree.toList) (hρ : ρ.Lawful) (op : ZOp I K V) :
    ∃ op', noPick op' = noPick op ∧ (t.step ρ op).map seen = t.content.step op' := by
  cases op with
  | insertStrictBack k v _ =>
    obtain ⟨pick, hp⟩ := insertStrictBack_eq h hρ k v
    exact ⟨.insertStrictBack k v pick, rfl, bind_seen hp (fun r => ZOut.strict (ZosditMap.errValue r))⟩
  | removeLastValueAtPoint p => exact ⟨.removeLastValueAtPoint p, rfl, bind_seen (removeLastValueAtPoint_eq h hρ p) ZOut.optValue⟩
  | cut q => exact ⟨.cut q, rfl, bind_seen (cut_eq h hρ q) ZOut.entries⟩

theorem run_eq (ops : List (ZOp I K V)) {t : TreeZosdit K V} (h : Good t.content) {ρ : Nat → Shape (K × List V)} (hρ : ∀ i, (ρ i).Lawful) :
    ∃ ops' : List (ZOp I K V), ops'.map noPick = ops.map noPick ∧
      (t.run ρ ops).1.content = (t.content.run ops').1 ∧ (t.run ρ ops).2 = (t.content.run ops').2 := by
  induction ops generalizing t ρ with
  | nil => exact ⟨[], rfl, rfl, rfl⟩
  | cons op ops ih =>
    obtain ⟨op', hn, he⟩ := step_eq h.inv (hρ 0) op
    rcases hs : t.step (ρ 0) op with p | ⟨t1, o⟩
    · rw [hs] at he
      obtain ⟨ops', h0, h1, h2⟩ := ih h (fun i => hρ (i + 1))
      refine ⟨op' :: ops', by simp [hn, h0], ?_⟩
      simp only [run, ZosditMap.run, hs, ← he, Except.map]
      exact ⟨h1, by rw [h2]⟩
    · rw [hs] at he
      have hw : Good t1.content := by
        rcases ZosditMap.step_ok (m := t.content) h op' with ⟨-, h2⟩ | ⟨-, m', o', h2, h3, -⟩
        · rw [h2] at he; cases he
        · rw [h2] at he
          injection he with he
          have : t1.content = m' := congrArg Prod.fst he
          rw [this]; exact h3
      obtain ⟨ops', h0, h1, h2⟩ := ih hw (fun i => hρ (i + 1))
      refine ⟨op' :: ops', by simp [hn, h0], ?_⟩
      simp only [run, ZosditMap.run, hs, ← he, Except.map, seen]
      exact ⟨h1, by rw [h2]⟩

/-! ### Without `cut` the shape plays no role -/

theorem entryPush_pick {comp : K → Res Ordering} {comp' : K → Ordering} {k : K} {v : V} (l : List (K × List V))
    (hok : ∀ x ∈ l, comp x.1 = .ok (comp' x.1)) (hd : l.Pairwise (fun a b => ¬ (comp' a.1 = .eq ∧ comp' b.1 = .eq))) (pick pick' : Nat) :
    entryPush comp k v pick l = entryPush comp k v pick' l := by
  induction l generalizing pick pick' with
  | nil => rw [entryPush, entryPush]
  | cons e l ih =>
    rw [List.pairwise_cons] at hd
    have ih' := ih (fun x hx => hok x (by simp [hx])) hd.2
    rw [entryPush, entryPush, hok e (by simp)]
    cases he : comp' e.1 with
    | lt => rfl
    | gt => simp only [bind, Except.bind, ih' pick pick']
    | eq =>
      cases l with
      | nil => simp only [bind, Except.bind, pure, Except.pure]
      | cons x l =>
        have hx : comp' x.1 ≠ .eq := fun h => hd.1 x (by simp) ⟨he, h⟩
        simp only [bind, Except.bind, pure, Except.pure, hok x (by simp), hx, decide_false]

theorem insert_pick {m : ZosditMap K V} (h : ZInv m.inner) (hn : NoDup m.inner) (k : K) (v : V) (pick pick' : Nat) :
    m.insertStrictBack k v pick = m.insertStrictBack k v pick' := by
  rw [ZosditMap.insertStrictBack, ZosditMap.insertStrictBack]
  by_cases hk : Valid k
  · obtain ⟨b, hb, hb'⟩ := isZeroOverlap_ok h (q := k) (valid_iff.1 hk)
    rw [hb]
    cases b with
    | false => rfl
    | true =>
      have hz := hb'.1 rfl
      have hcase := fun e (he : e ∈ m.inner) => insertComp_ok (valid_iff.1 hk) (h.valid e he) (hz e he)
      have := entryPush_pick (comp := insertComp k) (comp' := fun x => insertComp' (V := V) k (x, [])) (k := k) (v := v) m.inner
        (fun x hx => by
          unfold insertComp'
          rcases hcase x hx with ⟨hc, -⟩ | ⟨hc, -⟩ | ⟨hc, -⟩ <;> rw [hc])
        (List.Pairwise.imp_of_mem (fun {a b} ha hb hab hab' => by
          have h1 := h.valid a ha
          have h2 := h.valid b hb
          unfold insertComp' at hab'
          rcases hcase a ha with ⟨hc, c1, c2, c3⟩ | ⟨hc, -⟩ | ⟨hc, -⟩ <;> rcases hcase b hb with ⟨hd, d1, d2, d3⟩ | ⟨hd, -⟩ | ⟨hd, -⟩ <;>
            simp only [hc, hd] at hab' <;> first | (exfalso; order) | (simp at hab')) hn) pick pick'
      rw [this]
  · rw [NoditMap.bad_invalid hk]; rfl

theorem run_pick (ops ops' : List (ZOp I K V)) (he : ops'.map noPick = ops.map noPick) (hc : ∀ op ∈ ops, op.isCut = false)
    {m : ZosditMap K V} (h : Good m) (hn : NoDup m.inner) : m.run ops = m.run ops' := by
  induction ops generalizing ops' m with
  | nil => simp only [List.map_nil, List.map_eq_nil_iff] at he; rw [he]
  | cons op ops ih =>
    cases ops' with
    | nil => simp at he
    | cons op' ops' =>
      simp only [List.map_cons, List.cons.injEq] at he
      have hs : m.step op = m.step op' := by
        have he' := he.1
        cases op with
        | insertStrictBack k v pick =>
          cases op' with
          | insertStrictBack k' v' pick' =>
            simp only [noPick, ZOp.insertStrictBack.injEq] at he'
            obtain ⟨rfl, rfl, -⟩ := he'
            simp only [ZosditMap.step]
            rw [insert_pick h.inv hn k' v' pick pick']
          | _ => simp [noPick] at he'
        | removeLastValueAtPoint p => cases op' <;> simp_all [noPick]
        | cut q => cases op' <;> simp_all [noPick]
      simp only [ZosditMap.run, hs]
      have hcc : op'.isCut = false := by
        have := hc op (by simp)
        have he' := he.1
        cases op <;> cases op' <;> simp_all [noPick, ZOp.isCut]
      rcases ZosditMap.step_ok h op' with ⟨-, h1⟩ | ⟨-, m', o, h1, h2, -, -, h3⟩
      · rw [h1]; simp only; rw [ih ops' he.2 (fun op hop => hc op (by simp [hop])) h hn]
      · rw [h1]; simp only; rw [ih ops' he.2 (fun op hop => hc op (by simp [hop])) h2 (h3 hcc hn)]
end TreeZosdit

/-! ## The properties -/
section
variable {I K V D : Type} [PointType I] [LawfulPoint I] [IntervalType I K] [LawfulInterval I K]

/-- **C91** A program using a `NoditMap` gets the same results from every call whatever shapes the container's tree takes on: with
`ρ i n l` the tree in which the container arranges the entries `l` after its `n`-th change in the `i`-th call. -/
theorem C91_nodit_map [BEq V] (ops : List (Op I K V)) (ρ : Nat → Nat → List (K × V) → Tree (K × V)) (hρ : ∀ i n l, (ρ i n l).toList = l) :
    ((TreeNodit.new : TreeNodit K V).run ρ ops).2 = ((NoditMap.new : NoditMap K V).run ops).2 ∧
    ((TreeNodit.new : TreeNodit K V).run ρ ops).1.tree.toList = ((NoditMap.new : NoditMap K V).run ops).1.iter := by
  have hn : WF (TreeNodit.new : TreeNodit K V).tree.toList := ⟨by simp [TreeNodit.new, Tree.toList], by simp [TreeNodit.new, Tree.toList]⟩
  obtain ⟨h1, h2⟩ := TreeNodit.run_eq ops hn hρ
  exact ⟨h2, congrArg NoditMap.inner h1⟩

/-- **C91**, hence two containers arranging their trees differently cannot be told apart. -/
theorem C91_nodit_map_shapes [BEq V] (ops : List (Op I K V)) (ρ ρ' : Nat → Nat → List (K × V) → Tree (K × V))
    (hρ : ∀ i n l, (ρ i n l).toList = l) (hρ' : ∀ i n l, (ρ' i n l).toList = l) :
    ((TreeNodit.new : TreeNodit K V).run ρ ops).2 = ((TreeNodit.new : TreeNodit K V).run ρ' ops).2 :=
  (C91_nodit_map ops ρ hρ).1.trans (C91_nodit_map ops ρ' hρ').1.symm

/-- **C91** for `Gqdit`: the tree a history leads to exists (no panic) exactly when the modelled `Gqdit` does, has its entries, and
answers every query in the same way. -/
theorem C91_gqdit [DecidableEq D] (hist : GqHist I K D) (ρ : List Bool → Nat → Nat → Nat → List (K × Finset D) → Tree (K × Finset D))
    (hρ : ∀ w i j n l, (ρ w i j n l).toList = l) :
    (TreeGqdit.eval ρ hist).map TreeGqdit.content = Gqdit.eval hist ∧
    ∀ t g, TreeGqdit.eval ρ hist = .ok t → Gqdit.eval hist = .ok g → (∀ p : I, t.identifiersAtPoint p = g.identifiersAtPoint p) ∧
      ∀ {Q : Type} [IntervalType I Q] (q : Q), t.gapsNoIdentifier q = g.gapsNoIdentifier q ∧
        ∀ d, t.gapsWithIdentifier d q = g.gapsWithIdentifier d q := by
  obtain ⟨h1, h2⟩ := TreeGqdit.eval_eq hist (ρ := ρ) hρ
  refine ⟨h1, fun t g ht hg => ?_⟩
  have hw := h2 t ht
  rw [ht, hg] at h1
  injection h1 with h1
  subst h1
  exact ⟨TreeGqdit.identifiersAtPoint_eq hw, fun q => ⟨TreeGqdit.gapsNoIdentifier_eq hw q, fun d => TreeGqdit.gapsWithIdentifier_eq hw d q⟩⟩

/-- **C91** for `ZosditMap`: what a program observes on trees of any shapes is what it observes in the model for some numbers `pick`
(which the theorems about `ZosditMap` quantify over), and the final map answers every query in the same way. -/
theorem C91_zosdit_map (ops : List (ZOp I K V)) (ρ : Nat → Nat → List (K × List V) → Tree (K × List V)) (hρ : ∀ i n l, (ρ i n l).toList = l) :
    ∃ ops' : List (ZOp I K V), ops'.map TreeZosdit.noPick = ops.map TreeZosdit.noPick ∧
      ((TreeZosdit.new : TreeZosdit K V).run ρ ops).2 = ((ZosditMap.new : ZosditMap K V).run ops').2 ∧
      let t := ((TreeZosdit.new : TreeZosdit K V).run ρ ops).1
      let m := ((ZosditMap.new : ZosditMap K V).run ops').1
      t.len = m.len ∧ t.tree.toList = m.inner ∧ t.firstKeyValue = m.firstKeyValue ∧ t.lastKeyValue = m.lastKeyValue ∧
        (∀ p : I, t.getLastValueAtPoint p = m.getLastValueAtPoint p) ∧
        ∀ {Q : Type} [IntervalType I Q] (q : Q), t.overlapping q = m.overlapping q ∧ t.isZeroOverlap q = m.isZeroOverlap q := by
  obtain ⟨ops', h0, h1, h2⟩ := TreeZosdit.run_eq ops (t := TreeZosdit.new) ZosditMap.good_new hρ
  have hc : (TreeZosdit.new : TreeZosdit K V).content = ZosditMap.new := rfl
  rw [hc] at h1 h2
  refine ⟨ops', h0, h2, ?_⟩
  have hw : ZosditMap.ZInv ((TreeZosdit.new : TreeZosdit K V).run ρ ops).1.tree.toList := by
    have := (ZosditMap.good_after ops').inv
    rw [ZosditMap.after, ← h1] at this
    exact this
  simp only
  rw [← h1]
  exact ⟨rfl, rfl, TreeZosdit.firstKeyValue_eq, TreeZosdit.lastKeyValue_eq, TreeZosdit.getLastValueAtPoint_eq hw,
    fun q => ⟨TreeZosdit.overlapping_eq hw q, TreeZosdit.isZeroOverlap_eq hw q⟩⟩

/-- **C91** for `ZosditMap` without `cut`: the shapes play no role at all. -/
theorem C91_zosdit_map_no_cut (ops : List (ZOp I K V)) (hc : ∀ op ∈ ops, op.isCut = false)
    (ρ : Nat → Nat → List (K × List V) → Tree (K × List V)) (hρ : ∀ i n l, (ρ i n l).toList = l) :
    ((TreeZosdit.new : TreeZosdit K V).run ρ ops).2 = ((ZosditMap.new : ZosditMap K V).run ops).2 ∧
    ((TreeZosdit.new : TreeZosdit K V).run ρ ops).1.content = ((ZosditMap.new : ZosditMap K V).run ops).1 := by
  obtain ⟨ops', h0, h1, h2⟩ := TreeZosdit.run_eq ops (t := TreeZosdit.new) ZosditMap.good_new hρ
  have hcc : (TreeZosdit.new : TreeZosdit K V).content = ZosditMap.new := rfl
  rw [hcc] at h1 h2
  have := TreeZosdit.run_pick ops ops' h0 hc (m := ZosditMap.new) ZosditMap.good_new (by simp [ZosditMap.NoDup, ZosditMap.new])
  rw [this]
  exact ⟨h2, h1⟩
end

/-! ### Examples -/
namespace Demo
/-- a right comb: every node has one entry -/
def comb {α : Type} : List α → Tree α
  | [] => .empty
  | e :: l => .node .empty (.cons e (comb l) .nil)
/-- one leaf with all entries -/
def leaf {α : Type} (l : List α) : Tree α := .node .empty (l.foldr (fun e r => .cons e .empty r) .nil)

theorem comb_toList {α : Type} (l : List α) : (comb l).toList = l := by
  induction l with
  | nil => rfl
  | cons e l ih => simp [comb, Tree.toList, Edges.toList, ih]

theorem leaf_toList {α : Type} (l : List α) : (leaf l).toList = l := by
  have : ∀ l : List α, Edges.toList (l.foldr (fun e r => .cons e .empty r) .nil) = l := by
    intro l
    induction l with
    | nil => rfl
    | cons e l ih => simp [Edges.toList, Tree.toList, ih]
  simp [leaf, Tree.toList, this]

/-- a left comb -/
def leftComb {α : Type} (l : List α) : Tree α := l.foldl (fun t e => .node t (.cons e .empty .nil)) .empty

theorem leftComb_toList {α : Type} (l : List α) : (leftComb l).toList = l := by
  have : ∀ (l : List α) (t : Tree α), (l.foldl (fun t e => Tree.node t (.cons e .empty .nil)) t).toList = t.toList ++ l := by
    intro l
    induction l with
    | nil => simp
    | cons e l ih => intro t; simp [ih, Tree.toList, Edges.toList]
  simp [leftComb, this, Tree.toList]

/-- a container that builds combs and flat leaves in turn -/
def shapes {α : Type} (i n : Nat) (l : List α) : Tree α := if (i + n) % 2 = 0 then comb l else leaf l

theorem shapes_lawful {α : Type} (i n : Nat) (l : List α) : (shapes i n l).toList = l := by
  unfold shapes
  split
  · exact comb_toList l
  · exact leaf_toList l

example : ((TreeNodit.new : TreeNodit (Interval U8) Nat).run shapes ops).1.tree.toList = m.iter := (C91_nodit_map ops shapes shapes_lawful).2

/-- the tree walked through really is a tree with several levels -/
example : ((TreeNodit.new : TreeNodit (Interval U8) Nat).run (fun _ _ => comb) ops).1.tree = comb m.iter := by
  rw [m_iter]; rfl

example : ∃ ops', ops'.map TreeZosdit.noPick = zops.map TreeZosdit.noPick ∧
    ((TreeZosdit.new : TreeZosdit (Interval U8) Nat).run shapes zops).2 = (ZosditMap.new.run ops').2 :=
  let ⟨o, h, h', _⟩ := C91_zosdit_map zops shapes shapes_lawful
  ⟨o, h, h'⟩

/-- two trees for the same program with `cut`: the value 9 goes to different places (finding 4), so the numbers `pick` are needed -/
theorem C91_zosdit_shape_visible :
    ∃ (ops : List (ZOp U8 (Interval U8) Nat)) (ρ ρ' : Nat → Nat → List (Interval U8 × List Nat) → Tree (Interval U8 × List Nat)),
      (∀ i n l, (ρ i n l).toList = l) ∧ (∀ i n l, (ρ' i n l).toList = l) ∧
      ((TreeZosdit.new : TreeZosdit (Interval U8) Nat).run ρ ops).1.tree.toList ≠
        ((TreeZosdit.new : TreeZosdit (Interval U8) Nat).run ρ' ops).1.tree.toList := by
  refine ⟨zdup ++ [.insertStrictBack (iv 4 4) 9 0], fun _ _ => comb, fun _ _ => leftComb, fun _ _ => comb_toList, fun _ _ => leftComb_toList, ?_⟩
  decide
end Demo
end Nodit
