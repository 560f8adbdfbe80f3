import Verif.Props.ZosditExact
import Verif.Serde
/-!
# Verified repairs of `ZosditMap` (an appendix)

**What is defined in the namespace `Repair` is not code of `/repo`.** It is the model of `ZosditMap` with four small changes, one for
each of the findings on which C39, C40, C42 and C43 fail as stated; everything else is the modelled code. The theorems show that these
changes are enough: with them the documented behaviour holds for all histories, without exceptions. The claims of
`/verif/properties.jsonl` about the code as it is are not affected; they stay partial.
-/
set_option linter.unusedSectionVars false
namespace Nodit
open Spec PointType ZosditMap

variable {I K Q V : Type} [PointType I] [IntervalType I K] [IntervalType I Q]

namespace Repair

/-- `/repo/src/zosdit/map.rs:177-184, 224-231` with the condition `cursor.key().is_none()` replaced by "the key at the cursor does
not contain the point" -/
def lastAtPointCursor (m : ZosditMap K V) (point : I) : BTree.Cursor K (List V) :=
  let cursor := BTree.lowerBound (exclusiveComp point .gt) m.inner
  if cursor.key.any (fun k => InclusiveInterval.containsPoint k point) then cursor else cursor.movePrev

/-- `get_last_value_at_point`, `/repo/src/zosdit/map.rs:176-190`, with the changed cursor -/
def getLastValueAtPoint (m : ZosditMap K V) (point : I) : Option V :=
  ((lastAtPointCursor m point).keyValue.filter (fun e => InclusiveInterval.containsPoint e.1 point)).bind
    (fun e => e.2.getLast?)

/-- `remove_last_value_at_point`, `/repo/src/zosdit/map.rs:223-246`, with the changed cursor and `self.len -= 1` added -/
def removeLastValueAtPoint (m : ZosditMap K V) (point : I) : Res (ZosditMap K V × Option V) :=
  let cursor := lastAtPointCursor m point
  match cursor.after with
  | [] => pure (m, none)
  | (key, value) :: rest =>
    if InclusiveInterval.containsPoint key point then do
      let last ← unwrap value.getLast?
      let value := value.dropLast
      let c : BTree.Cursor K (List V) := ⟨cursor.before, (key, value) :: rest⟩
      let c := if value.isEmpty then c.removeCurrent.2 else c
      if m.len < 1 then .error .overflow else pure (⟨m.len - 1, c.entries⟩, some last)
    else pure (m, none)

/-- `insert_strict_back`, `/repo/src/zosdit/map.rs:279-323`, choosing the last of several stores for the same point interval -/
def insertStrictBack (m : ZosditMap K V) (interval : K) (value : V) : Res (ZosditMap K V × Except (NonZeroOverlapError V) Unit) :=
  m.insertStrictBack interval value m.inner.length

/-- `cut`, `/repo/src/zosdit/map.rs:419-464`, starting at the first store that ends at or after the start of the interval -/
def cut (m : ZosditMap K V) (interval : Q) : Res (ZosditMap K V × List (K × V)) := do
  invalidIntervalPanic interval
  let cursor := BTree.lowerBound (inclusiveComp (start interval) .lt) m.inner
  let (left, result, len) ← cutLoop interval m.len cursor.after
  pure (⟨len, cursor.before ++ left⟩, result)

/-- one call -/
def step (m : ZosditMap K V) : ZOp I K V → Res (ZosditMap K V × ZOut K V)
  | .insertStrictBack k v _ => do let (m, r) ← insertStrictBack m k v; pure (m, .strict (errValue r))
  | .removeLastValueAtPoint p => do let (m, r) ← removeLastValueAtPoint m p; pure (m, .optValue r)
  | .cut q => do let (m, r) ← cut m q; pure (m, .entries r)

/-- a history of calls: the final map and the results -/
def run (m : ZosditMap K V) : List (ZOp I K V) → ZosditMap K V × List (Res (ZOut K V))
  | [] => (m, [])
  | op :: ops =>
    match step m op with
    | .error p => let (m', os) := run m ops; (m', .error p :: os)
    | .ok (m1, o) => let (m', os) := run m1 ops; (m', .ok o :: os)

end Repair

/-! ## The documented behaviour -/
namespace Spec

/-- What the documentation says of the calls, on the sequence of entries. -/
def DocOp (l : List (K × V)) : ZOp I K V → List (K × V) → ZOut K V → Prop
  | .insertStrictBack k v _, l', o =>
    ((∃ e ∈ l, ¬ ZeroOverlap e.1 k) → l' = l ∧ o = .strict (.error v)) ∧
    ((∀ e ∈ l, ZeroOverlap e.1 k) → o = .strict (.ok ()) ∧ AddedAt l k v True l')
  | .removeLastValueAtPoint p, l', o =>
    ((∀ e ∈ l, ¬ Mem p e.1) → l' = l ∧ o = .optValue none) ∧
    ((∃ e ∈ l, Mem p e.1) → ∃ l1 k v l2, l = l1 ++ (k, v) :: l2 ∧ Mem p k ∧ (∀ e ∈ l2, ¬ Mem p e.1) ∧ l' = l1 ++ l2 ∧
      o = .optValue (some v))
  | .cut q, l', o => ∃ returned, CutAll q l l' returned ∧ o = .entries returned

/-- A history of calls: invalid arguments make a call panic, without any effect. -/
inductive DocRun : List (K × V) → List (ZOp I K V) → List (K × V) → List (Res (ZOut K V)) → Prop
  | nil (l) : DocRun l [] l []
  | panic {l l' op ops os} : op.Bad → DocRun l ops l' os → DocRun l (op :: ops) l' (.error .invalidInterval :: os)
  | call {l l' l'' op ops o os} : ¬ op.Bad → DocOp l op l' o → DocRun l' ops l'' os → DocRun l (op :: ops) l'' (.ok o :: os)

end Spec

namespace Repair

theorem entryPush_last {l : List (K × List V)} (h : ZInv l) {k : K} (hk : start k ≤ stop k) (v : V) {pick : Nat} (hp : l.length ≤ pick)
    (hz : ∀ e ∈ l, stop e.1 ≤ start k ∨ stop k ≤ start e.1) :
    ∃ l' l1 k' l2, entryPush (insertComp k) k v pick l = .ok l' ∧ flatten l = l1 ++ l2 ∧ flatten l' = l1 ++ (k', v) :: l2 ∧
      start k' = start k ∧ stop k' = stop k ∧ (k' = k ∨ ∃ e ∈ l, e.1 = k') ∧
      ((∀ e ∈ l, ¬ (start e.1 = start k ∧ stop e.1 = stop k)) → k' = k) ∧
      (∀ e ∈ l1, stop e.1 ≤ start k) ∧ (∀ e ∈ l2, stop k ≤ start e.1 ∧ ¬ (start e.1 = start k ∧ stop e.1 = stop k)) := by
  induction l generalizing pick with
  | nil => exact ⟨[(k, [v])], [], k, [], rfl, rfl, rfl, rfl, rfl, Or.inl rfl, fun _ => rfl, by simp, by simp⟩
  | cons e l ih =>
    obtain ⟨h1, h2, h3, h4, h5⟩ := ZInv.cons.1 h
    have hz' : ∀ x ∈ l, stop x.1 ≤ start k ∨ stop k ≤ start x.1 := fun x hx => hz x (by simp [hx])
    -- passing over `e`
    have pass : ∀ pick', l.length ≤ pick' → stop e.1 ≤ start k → ∃ l' l1 k' l2, entryPush (insertComp k) k v pick' l = .ok l' ∧
        flatten (e :: l) = l1 ++ l2 ∧ flatten (e :: l') = l1 ++ (k', v) :: l2 ∧
        start k' = start k ∧ stop k' = stop k ∧ (k' = k ∨ ∃ x ∈ e :: l, x.1 = k') ∧
        ((∀ x ∈ e :: l, ¬ (start x.1 = start k ∧ stop x.1 = stop k)) → k' = k) ∧
        (∀ x ∈ l1, stop x.1 ≤ start k) ∧ (∀ x ∈ l2, stop k ≤ start x.1 ∧ ¬ (start x.1 = start k ∧ stop x.1 = stop k)) := by
      intro pick' hp' hle
      obtain ⟨l', l1, k', l2, e1, e2, e3, e4, e5, e6, e7, e8, e9⟩ := ih h5 hp' hz'
      refine ⟨l', e.2.map (fun v => (e.1, v)) ++ l1, k', l2, e1, ?_, ?_, e4, e5, ?_, fun hs => e7 fun x hx => hs x (by simp [hx]), ?_, e9⟩
      · rw [flatten_cons, e2, List.append_assoc]
      · rw [flatten_cons, e3, List.append_assoc]
      · rcases e6 with e6 | ⟨x, hx, e6⟩
        · exact Or.inl e6
        · exact Or.inr ⟨x, by simp [hx], e6⟩
      · intro x hx
        rcases List.mem_append.1 hx with hx | hx
        · obtain ⟨w, -, rfl⟩ := List.mem_map.1 hx; exact hle
        · exact e8 x hx
    rcases insertComp_ok hk h1 (hz e (by simp)) with ⟨hc, c1, c2, c3⟩ | ⟨hc, c1, c2⟩ | ⟨hc, c1, c2⟩
    · cases pick with
      | zero => simp at hp
      | succ pick =>
        rw [List.length_cons] at hp
        cases l with
        | nil =>
          refine ⟨[(e.1, e.2 ++ [v])], e.2.map (fun v => (e.1, v)), e.1, [], ?_, ?_, ?_, c1, by rw [c2, c3], Or.inr ⟨e, by simp, rfl⟩, ?_, ?_, by simp⟩
          · rw [entryPush, hc]; rfl
          · simp [flatten_cons, flatten_nil]
          · simp [flatten_cons, flatten_nil]
          · intro hs; exact absurd ⟨c1, by rw [c2, c3]⟩ (hs e (by simp))
          · intro x hx
            obtain ⟨w, -, rfl⟩ := List.mem_map.1 hx
            exact le_of_eq c2
        | cons e' l =>
          have hv' := h5.valid e' (by simp)
          rcases insertComp_ok hk hv' (hz e' (by simp)) with ⟨hc', d1, d2, d3⟩ | ⟨hc', d1, d2⟩ | ⟨hc', d1, d2⟩
          · obtain ⟨l', l1, k', l2, e1, e2⟩ := pass pick (by simpa using hp) (le_of_eq c2)
            refine ⟨e :: l', l1, k', l2, ?_, e2⟩
            rw [entryPush, hc]
            simp only [bind, Except.bind, pure, Except.pure, hc', e1, decide_true]
          · exfalso; have := h4 e' (by simp); order
          · refine ⟨(e.1, e.2 ++ [v]) :: e' :: l, e.2.map (fun v => (e.1, v)), e.1, flatten (e' :: l), ?_, rfl, ?_, c1, by rw [c2, c3],
              Or.inr ⟨e, by simp, rfl⟩, ?_, ?_, ?_⟩
            · rw [entryPush, hc]
              simp only [bind, Except.bind, pure, Except.pure, hc']
              rfl
            · rw [flatten_cons]; simp
            · intro hs; exact absurd ⟨c1, by rw [c2, c3]⟩ (hs e (by simp))
            · intro x hx
              obtain ⟨w, -, rfl⟩ := List.mem_map.1 hx
              exact le_of_eq c2
            · intro x hx
              obtain ⟨y, hy, hyx, -⟩ := mem_flatten.1 hx
              rw [← hyx]
              have hy' : start e'.1 ≤ start y.1 ∧ (y = e' ∨ stop e'.1 ≤ start y.1) := by
                rcases List.mem_cons.1 hy with rfl | hy
                · exact ⟨le_refl _, Or.inl rfl⟩
                · have := (ZInv.cons.1 h5).2.2.2.1 y hy
                  exact ⟨by order, Or.inr this⟩
              refine ⟨by have := hy'.1; order, ?_⟩
              rintro ⟨g1, g2⟩
              rcases hy'.2 with rfl | g3
              · order
              · order
    · obtain ⟨l', l1, k', l2, e1, e2⟩ := pass pick (by simp at hp; omega) c1
      exact ⟨e :: l', l1, k', l2, by rw [entryPush, hc]; simp only [bind, Except.bind, pure, Except.pure, e1], e2⟩
    · refine ⟨(k, [v]) :: e :: l, [], k, flatten (e :: l), by rw [entryPush, hc]; rfl, rfl, rfl, rfl, rfl, Or.inl rfl, fun _ => rfl, by simp, ?_⟩
      intro x hx
      obtain ⟨y, hy, hyx, -⟩ := mem_flatten.1 hx
      rw [← hyx]
      have hy' : start e.1 ≤ start y.1 ∧ (y = e ∨ stop e.1 ≤ start y.1) := by
        rcases List.mem_cons.1 hy with rfl | hy
        · exact ⟨le_refl _, Or.inl rfl⟩
        · have := h4 y hy
          exact ⟨by order, Or.inr this⟩
      refine ⟨by have := hy'.1; order, ?_⟩
      rintro ⟨g1, g2⟩
      rcases hy'.2 with rfl | g3
      · order
      · order

theorem cursor_ok {m : ZosditMap K V} (h : ZInv m.inner) (p : I) :
    ((∀ e ∈ m.inner, ¬ Mem p e.1) ∧ ∀ e, (lastAtPointCursor m p).keyValue = some e → ¬ Mem p e.1) ∨
    ∃ pre k vs rest, m.inner = pre ++ (k, vs) :: rest ∧ lastAtPointCursor m p = ⟨pre, (k, vs) :: rest⟩ ∧ Mem p k ∧
      ∀ e ∈ rest, ¬ Mem p e.1 := by
  unfold lastAtPointCursor BTree.lowerBound
  have hsplit := List.takeWhile_append_dropWhile (p := fun e : K × List V => exclusiveComp p .gt e.1 == .gt) (l := m.inner)
  have hpre : ∀ x ∈ m.inner.takeWhile (fun e => exclusiveComp p .gt e.1 == .gt), stop x.1 ≤ p := by
    intro x hx
    have h1 := List.all_eq_true.1 (List.all_takeWhile (p := fun e : K × List V => exclusiveComp p .gt e.1 == .gt) (l := m.inner)) x hx
    have h2 : x ∈ m.inner := List.takeWhile_subset _ hx
    rw [exclusive_gt (h.valid x h2), decide_eq_true_eq] at h1
    exact h1
  have hpost : ∀ x, (m.inner.dropWhile (fun e => exclusiveComp p .gt e.1 == .gt)).head? = some x → p < stop x.1 := by
    intro x hx
    have h1 := List.head?_dropWhile_not (p := fun e : K × List V => exclusiveComp p .gt e.1 == .gt) m.inner
    rw [hx] at h1
    have h2 : x ∈ m.inner := List.dropWhile_subset _ (List.mem_of_head? hx)
    simp only [Bool.not_eq_true'] at h1
    rw [exclusive_gt (h.valid x h2), decide_eq_false_iff_not] at h1
    exact not_le.1 h1
  generalize m.inner.takeWhile (fun e => exclusiveComp p .gt e.1 == .gt) = pre at hsplit hpre
  generalize m.inner.dropWhile (fun e => exclusiveComp p .gt e.1 == .gt) = post at hsplit hpost
  have hz := h
  rw [← hsplit, ZInv.append] at hz
  obtain ⟨z1, z2, z3⟩ := hz
  have hcp : ∀ k : K, InclusiveInterval.containsPoint k p = true ↔ Mem p k := by
    intro k; simp only [InclusiveInterval.containsPoint, Bool.and_eq_true, decide_eq_true_eq, ge_iff_le]; rfl
  -- the entries after the first of `post`
  have hafter : ∀ e post', post = e :: post' → ∀ x ∈ post', ¬ Mem p x.1 := by
    rintro e post' rfl x hx hc
    have h1 := (ZInv.cons.1 z2).2.2.2.1 x hx
    have h2 := hpost e rfl
    have := hc.1
    order
  by_cases hc : ((⟨pre, post⟩ : BTree.Cursor K (List V)).key).any (fun k => InclusiveInterval.containsPoint k p) = true
  · rw [if_pos hc]
    simp only [BTree.Cursor.key] at hc
    right
    cases post with
    | nil => simp at hc
    | cons e post =>
      simp only [List.head?_cons, Option.map_some, Option.any_some] at hc
      exact ⟨pre, e.1, e.2, post, hsplit.symm, rfl, (hcp _).1 hc, hafter e post rfl⟩
  · rw [if_neg hc]
    simp only [BTree.Cursor.key] at hc
    have hnp : ∀ x ∈ post, ¬ Mem p x.1 := by
      cases post with
      | nil => simp
      | cons e post =>
        simp only [List.head?_cons, Option.map_some, Option.any_some, hcp] at hc
        intro x hx
        rcases List.mem_cons.1 hx with rfl | hx
        · exact hc
        · exact hafter e post rfl x hx
    rcases List.eq_nil_or_concat pre with rfl | ⟨pre, e, rfl⟩
    · left
      rw [List.nil_append] at hsplit
      rw [← hsplit]
      exact ⟨hnp, by simp [BTree.Cursor.movePrev, BTree.Cursor.keyValue]⟩
    · rw [List.concat_eq_append] at hsplit hpre z1 z3 ⊢
      rw [List.append_assoc, List.singleton_append] at hsplit
      simp only [BTree.Cursor.movePrev, List.getLast?_concat, List.dropLast_concat]
      by_cases hm : Mem p e.1
      · right
        exact ⟨pre, e.1, e.2, post, hsplit.symm, rfl, hm, hnp⟩
      · left
        refine ⟨?_, by simp [BTree.Cursor.keyValue, hm]⟩
        intro x hx hxm
        rw [← hsplit] at hx
        rcases List.mem_append.1 hx with hx | hx
        · have h1 := (ZInv.append.1 z1).2.2 x hx e (by simp)
          have h2 := hpre e (by simp)
          have h3 := (ZInv.append.1 z1).2.1.valid e (by simp)
          have h4 := hxm.2
          exact hm ⟨by order, by order⟩
        · rcases List.mem_cons.1 hx with rfl | hx
          · exact hm hxm
          · exact hnp x hx hxm

theorem last_ok {m : ZosditMap K V} (h : ZInv m.inner) (hl : m.len = m.iter.length) (p : I) :
    ((∀ e ∈ m.iter, ¬ Mem p e.1) ∧ getLastValueAtPoint m p = none ∧ removeLastValueAtPoint m p = .ok (m, none)) ∨
    ∃ v m' l1 k l2, getLastValueAtPoint m p = some v ∧ removeLastValueAtPoint m p = .ok (m', some v) ∧ Mem p k ∧
      m.iter = l1 ++ (k, v) :: l2 ∧ m'.iter = l1 ++ l2 ∧ (∀ e ∈ l2, ¬ Mem p e.1) ∧ m'.len = m'.iter.length ∧ ZInv m'.inner := by
  have hcp : ∀ k : K, InclusiveInterval.containsPoint k p = true ↔ Mem p k := by
    intro k; simp only [InclusiveInterval.containsPoint, Bool.and_eq_true, decide_eq_true_eq, ge_iff_le]; rfl
  unfold getLastValueAtPoint removeLastValueAtPoint
  rcases cursor_ok h p with ⟨h1, h2⟩ | ⟨pre, k, vs, rest, h1, h2, h3, h4⟩
  · left
    refine ⟨(h.forall_iff (fun x => ¬ Mem p x)).1 h1, ?_, ?_⟩
    · generalize lastAtPointCursor m p = c at h2
      cases hc : c.keyValue with
      | none => rfl
      | some e =>
        have := h2 e hc
        rw [← hcp] at this
        simp [Option.filter_some, this]
    · generalize lastAtPointCursor m p = c at h2
      show (match c.after with | [] => _ | (key, value) :: rest => _) = _
      cases hc : c.after with
      | nil => rfl
      | cons e l =>
        have := h2 e (by rw [BTree.Cursor.keyValue, hc]; rfl)
        rw [← hcp] at this
        simp only [this, if_false]
        rfl
  · right
    rw [h2]
    have hz := h
    rw [h1, ZInv.append, ZInv.cons] at hz
    obtain ⟨z1, ⟨z2, z3, z4, z5, z6⟩, z7⟩ := hz
    simp only at z2 z3 z4 z5
    have hk := (hcp k).2 h3
    rcases List.eq_nil_or_concat vs with rfl | ⟨vs', v, rfl⟩
    · exact absurd rfl z3
    · rw [List.concat_eq_append] at *
      have hlen : ¬ m.len < 1 := by rw [hl]; simp [iter, h1, flatten_append, flatten_cons]
      simp only [BTree.Cursor.keyValue, List.head?_cons, Option.filter_some, hk, if_true, Option.bind_some,
        List.getLast?_concat, List.dropLast_concat, unwrap, bind, Except.bind, pure, Except.pure, if_neg hlen]
      have e1 : m.iter = (flatten pre ++ vs'.map (fun v => (k, v))) ++ (k, v) :: flatten rest := by
        simp [iter, h1, flatten_append, flatten_cons]
      refine ⟨v, _, flatten pre ++ vs'.map (fun v => (k, v)), k, flatten rest, rfl, rfl, h3, e1, ?_, ?_, ?_, ?_⟩
      · cases vs' with
        | nil => simp [iter, BTree.Cursor.removeCurrent, BTree.Cursor.entries, flatten_append]
        | cons w ws => simp [iter, BTree.Cursor.entries, flatten_append, flatten_cons]
      · intro e he
        obtain ⟨d, hd, hd1, -⟩ := mem_flatten.1 he
        rw [← hd1]; exact h4 d hd
      · rw [hl, e1]
        cases vs' with
        | nil => simp [iter, BTree.Cursor.removeCurrent, BTree.Cursor.entries, flatten_append]
        | cons w ws => simp [iter, BTree.Cursor.entries, flatten_append, flatten_cons]; omega
      · cases vs' with
        | nil =>
          simp only [List.isEmpty_nil, if_true, BTree.Cursor.removeCurrent, BTree.Cursor.entries]
          exact ZInv.append.2 ⟨z1, z6, fun a ha b hb => z7 a ha b (by simp [hb])⟩
        | cons w ws =>
          simp only [List.isEmpty_cons, Bool.false_eq_true, if_false, BTree.Cursor.entries]
          refine ZInv.append.2 ⟨z1, ZInv.cons.2 ⟨z2, by simp, ?_, z5, z6⟩, ?_⟩
          · rcases z4 with z4 | z4
            · simp at z4
            · exact Or.inr z4
          · intro a ha b hb
            rcases List.mem_cons.1 hb with rfl | hb
            · exact z7 a ha (k, (w :: ws) ++ [v]) (List.mem_cons_self ..)
            · exact z7 a ha b (by simp [hb])

section
variable [LawfulPoint I] [LawfulInterval I K]

theorem cut_ok {m : ZosditMap K V} (h : ZInv m.inner) (hlen : m.len = m.iter.length) {q : Q} (hq : start q ≤ stop q) :
    ∃ m', cut m q = .ok (m', m.iter.flatMap (cutIn q)) ∧ m'.iter = m.iter.flatMap (cutOut q) ∧ ZInv m'.inner ∧
      m'.len = m'.iter.length := by
  unfold cut BTree.lowerBound
  rw [invalidIntervalPanic_ok hq]
  have g1 : ∀ e ∈ m.inner, (inclusiveComp (start q) .lt e.1 == .gt) = decide (stop e.1 < start q) := by
    intro e he
    have := h.valid e he
    unfold inclusiveComp
    split_ifs with h1 h2
    · have : ¬ stop e.1 < start q := by order
      simp [this]
    · simp [show stop e.1 < start q from h2]
    · have : ¬ stop e.1 < start q := h2
      simp [this]
  have hanti : m.inner.Pairwise (fun a b => (inclusiveComp (start q) .lt b.1 == .gt) = true → (inclusiveComp (start q) .lt a.1 == .gt) = true) := by
    refine List.Pairwise.imp_of_mem ?_ h.seq
    intro a b ha hb hab
    rw [g1 a ha, g1 b hb, decide_eq_true_eq, decide_eq_true_eq]
    intro h1; have := h.valid b hb; order
  have hsplit := List.takeWhile_append_dropWhile (p := fun e : K × List V => inclusiveComp (start q) .lt e.1 == .gt) (l := m.inner)
  have hpre : ∀ x ∈ m.inner.takeWhile (fun e => inclusiveComp (start q) .lt e.1 == .gt), stop x.1 < start q := by
    intro x hx
    have h1 := List.all_eq_true.1 (List.all_takeWhile (p := fun e : K × List V => inclusiveComp (start q) .lt e.1 == .gt) (l := m.inner)) x hx
    have h2 : x ∈ m.inner := List.takeWhile_subset _ hx
    rw [g1 x h2, decide_eq_true_eq] at h1
    exact h1
  have hpost : ∀ x ∈ m.inner.dropWhile (fun e => inclusiveComp (start q) .lt e.1 == .gt), start q ≤ stop x.1 := by
    intro x hx
    rw [dropWhile_eq_filter hanti] at hx
    obtain ⟨h1, h2⟩ := List.mem_filter.1 hx
    rw [g1 x h1] at h2
    simpa using h2
  generalize m.inner.takeWhile (fun e => inclusiveComp (start q) .lt e.1 == .gt) = pre at hsplit hpre
  generalize m.inner.dropWhile (fun e => inclusiveComp (start q) .lt e.1 == .gt) = post at hsplit hpost
  have hz := h
  rw [← hsplit, ZInv.append] at hz
  obtain ⟨z1, z2, z3⟩ := hz
  have hiter : m.iter = flatten pre ++ flatten post := by simp [iter, ← hsplit, flatten_append]
  obtain ⟨len', c1, c2⟩ := cutLoop_ok z2 hq hpost (len := m.len) (by rw [hlen, hiter]; simp)
  simp only [bind, Except.bind, pure, Except.pure, c1]
  have hpren' : ∀ x ∈ pre, ovl q x = false := by
    intro x hx
    have : ¬ start q ≤ stop x.1 := not_le.2 (hpre x hx)
    simp [ovl, this]
  have hpo : pre.flatMap (cutOut q) = pre := flatMap_id fun x hx => by simp [cutOut, hpren' x hx]
  have hinner : m.inner.flatMap (cutOut q) = pre ++ post.flatMap (cutOut q) := by
    rw [← hsplit, List.flatMap_append, hpo]
  have hin : (m.iter).flatMap (cutIn q) = flatten (post.flatMap (cutIn q)) := by
    rw [hiter, List.flatMap_append, ← flatten_cutIn, ← flatten_cutIn]
    have : pre.flatMap (cutIn q) = [] := by
      rw [List.flatMap_eq_nil_iff]; intro x hx; simp [cutIn, hpren' x hx]
    rw [this]; rfl
  refine ⟨⟨len', pre ++ post.flatMap (cutOut q)⟩, by rw [hin], ?_, ?_, ?_⟩
  · rw [iter, iter, ← flatten_cutOut h, hinner]
  · rw [← hinner]; exact cutOut_list_inv hq h
  · rw [hlen, hiter] at c2
    simp only [iter, flatten_append, List.length_append] at *
    omega

/-- the invariant of the repaired map -/
structure Good (m : ZosditMap K V) : Prop where
  inv : ZInv m.inner
  len : m.len = m.iter.length

theorem step_ok {m : ZosditMap K V} (h : Good m) (op : ZOp I K V) :
    (op.Bad ∧ step m op = .error .invalidInterval) ∨
    (¬ op.Bad ∧ ∃ m' o, step m op = .ok (m', o) ∧ Good m' ∧ DocOp m.iter op m'.iter o) := by
  have hv := h.inv.flat.1
  cases op with
  | insertStrictBack k v pick =>
    by_cases hk : Valid k
    · right
      refine ⟨fun hc => hc hk, ?_⟩
      have hk' := valid_iff.1 hk
      rcases insert_ok h.inv hk' v m.inner.length with ⟨⟨e, he, hn⟩, h1⟩ | ⟨h1, l', h2, h3⟩
      · have hex : ∃ e ∈ m.iter, ¬ ZeroOverlap e.1 k := by
          by_contra hc
          refine hn ((h.inv.forall_iff (fun x => stop x ≤ start k ∨ stop k ≤ start x)).2 (fun d hd => ?_) e he)
          refine (zeroOverlap_iff (hv d hd) hk').1 ?_
          by_contra hd'
          exact hc ⟨d, hd, hd'⟩
        refine ⟨m, .strict (.error v), by rw [step, insertStrictBack, h1]; rfl, h, fun _ => ⟨rfl, rfl⟩, fun hc => ?_⟩
        obtain ⟨d, hd, hd'⟩ := hex
        exact absurd (hc d hd) hd'
      · have hall : ∀ e ∈ m.iter, ZeroOverlap e.1 k := fun e he =>
          (zeroOverlap_iff (hv e he) hk').2 ((h.inv.forall_iff (fun x => stop x ≤ start k ∨ stop k ≤ start x)).1 h1 e he)
        obtain ⟨l'', l1, k', l2, e1, e2, e3, e4, e5, e6, e7, e8, e9⟩ := entryPush_last h.inv hk' v (le_refl _) h1
        rw [h2] at e1; injection e1 with e1; subst e1
        obtain ⟨_, _, _, _, f1, f2, -⟩ := entryPush_ok h.inv hk' v m.inner.length h1
        rw [h2] at f1; injection f1 with f1; subst f1
        have hit : m.iter = l1 ++ l2 := e2
        have hi1 : ∀ e ∈ l1, e ∈ m.iter := fun e he => by rw [hit]; simp [he]
        have hi2 : ∀ e ∈ l2, e ∈ m.iter := fun e he => by rw [hit]; simp [he]
        refine ⟨⟨m.len + 1, l'⟩, .strict (.ok ()), by rw [step, insertStrictBack, h3]; rfl, ⟨f2, ?_⟩, ?_, fun _ => ⟨rfl, ?_⟩⟩
        · show m.len + 1 = (flatten l').length
          rw [h.len, hit, e3]; simp only [List.length_append, List.length_cons]; omega
        · rintro ⟨e, he, hz⟩; exact absurd (hall e he) hz
        · refine ⟨l1, k', l2, hit, e3, fun p => by simp [Mem, e4, e5], ?_, ?_, ?_, ?_, ?_⟩
          · rcases e6 with e6 | ⟨e, he, e6⟩
            · exact Or.inl e6
            · right
              have hs := h.inv.store e he
              obtain ⟨w, hw⟩ := List.exists_mem_of_ne_nil _ hs
              exact ⟨(e.1, w), mem_flatten.2 ⟨e, he, rfl, hw⟩, e6⟩
          · intro hs
            refine e7 ((h.inv.forall_iff (fun x => ¬ (start x = start k ∧ stop x = stop k))).2 fun e he hc => ?_)
            exact hs e he ((sameInterval_iff (hv e he) hk').2 hc)
          · intro e he; exact (atOrBefore_iff (hv e (hi1 e he)) hk').2 (e8 e he)
          · intro e he; exact (atOrBefore_iff hk' (hv e (hi2 e he))).2 (e9 e he).1
          · intro _ e he hs; exact (e9 e he).2 ((sameInterval_iff (hv e (hi2 e he)) hk').1 hs)
    · left
      refine ⟨hk, ?_⟩
      rw [valid_iff] at hk
      rw [step, insertStrictBack, ZosditMap.insertStrictBack, invalidIntervalPanic_err hk]; rfl
  | removeLastValueAtPoint p =>
    right
    refine ⟨id, ?_⟩
    rcases last_ok h.inv h.len p with ⟨h1, -, h2⟩ | ⟨v, m', l1, k, l2, -, h2, h3, h4, h5, h6, h7, h8⟩
    · exact ⟨m, .optValue none, by rw [step, h2]; rfl, h, fun _ => ⟨rfl, rfl⟩, fun ⟨e, he, hp⟩ => absurd hp (h1 e he)⟩
    · refine ⟨m', .optValue (some v), by rw [step, h2]; rfl, ⟨h8, h7⟩, fun hc => ?_, fun _ => ⟨l1, k, v, l2, h4, h3, h6, h5, rfl⟩⟩
      exact absurd h3 (hc (k, v) (by rw [h4]; simp))
  | cut q =>
    by_cases hq : Valid q
    · right
      refine ⟨fun hc => hc hq, ?_⟩
      have hq' := valid_iff.1 hq
      obtain ⟨m', h1, h2, h3, h4⟩ := cut_ok h.inv h.len hq'
      exact ⟨m', .entries _, by rw [step, h1]; rfl, ⟨h3, h4⟩, _, by rw [h2]; exact cutAll_ok hq' hv, rfl⟩
    · left
      refine ⟨hq, ?_⟩
      rw [valid_iff] at hq
      rw [step, cut, invalidIntervalPanic_err hq]; rfl

theorem run_ok {m : ZosditMap K V} (h : Good m) (ops : List (ZOp I K V)) :
    Good (run m ops).1 ∧ DocRun m.iter ops (run m ops).1.iter (run m ops).2 := by
  induction ops generalizing m with
  | nil => exact ⟨h, .nil _⟩
  | cons op ops ih =>
    rcases step_ok h op with ⟨hb, h1⟩ | ⟨hb, m', o, h1, h2, h3⟩
    · obtain ⟨h2, h3⟩ := ih h
      rw [run, h1]
      exact ⟨h2, .panic hb h3⟩
    · obtain ⟨h4, h5⟩ := ih h2
      rw [run, h1]
      exact ⟨h4, .call hb h3 h5⟩

theorem good_after (ops : List (ZOp I K V)) : Good (run (new : ZosditMap K V) ops).1 :=
  (run_ok ⟨ZInv.nil, rfl⟩ ops).1

end
end Repair

/-! ## What the repairs achieve -/
section
variable [LawfulPoint I] [LawfulInterval I K]

/-- With the repairs every history of calls, with valid or invalid arguments, gives the documented results and entries (C39, C40, C41 and
C43 without exceptions), and `len()` is the number of entries (C42 without exceptions). -/
theorem Repair_zosdit_documented (ops : List (ZOp I K V)) :
    DocRun [] ops (Repair.run new ops).1.iter (Repair.run new ops).2 ∧
      (Repair.run (new : ZosditMap K V) ops).1.length = (Repair.run (new : ZosditMap K V) ops).1.iter.length ∧
      ((Repair.run (new : ZosditMap K V) ops).1.isEmpty = true ↔ (Repair.run (new : ZosditMap K V) ops).1.iter = []) := by
  have h := (Repair.run_ok (m := (new : ZosditMap K V)) ⟨ZInv.nil, rfl⟩ ops)
  refine ⟨h.2, h.1.len, ?_⟩
  rw [isEmpty, beq_iff_eq, h.1.len, List.length_eq_zero_iff]

/-- With the repairs `get_last_value_at_point(p)` is the value of the last entry containing `p`, and `None` only if there is none. -/
theorem Repair_zosdit_lookup (ops : List (ZOp I K V)) (p : I) :
    let m := (Repair.run (new : ZosditMap K V) ops).1
    (Repair.getLastValueAtPoint m p = none ↔ ∀ e ∈ m.iter, ¬ Mem p e.1) ∧
    ∀ v, Repair.getLastValueAtPoint m p = some v ↔
      ∃ l1 k l2, m.iter = l1 ++ (k, v) :: l2 ∧ Mem p k ∧ ∀ e ∈ l2, ¬ Mem p e.1 := by
  intro m
  have hg : Repair.Good m := Repair.good_after ops
  rcases Repair.last_ok hg.inv hg.len p with ⟨h1, h2, -⟩ | ⟨v, m', l1, k, l2, h2, -, h3, h4, -, h6, -⟩
  · rw [h2]
    refine ⟨⟨fun _ => h1, fun _ => rfl⟩, fun v => ⟨(by intro h; cases h), ?_⟩⟩
    rintro ⟨l1, k, l2, h3, h4, -⟩
    exact absurd h4 (h1 (k, v) (by rw [h3]; simp))
  · rw [h2]
    refine ⟨⟨(by intro h; cases h), fun hc => absurd h3 (hc (k, v) (by rw [h4]; simp))⟩, fun w => ⟨?_, ?_⟩⟩
    · intro h; cases h
      exact ⟨l1, k, l2, h4, h3, h6⟩
    · rintro ⟨l1', k', l2', h7, h8, h9⟩
      rw [last_unique (P := fun e : K × V => Mem p e.1) (h4.symm.trans h7) h3 h6 h8 h9 |>.2.1]

/-- With the repairs the length announced when serialising is right after every history (part of C48). -/
theorem Repair_zosdit_hint (ops : List (ZOp I K V)) :
    (Repair.run (new : ZosditMap K V) ops).1.serialize.hint = some (Repair.run (new : ZosditMap K V) ops).1.serialize.elems.length := by
  have h := (Repair.good_after (K := K) (V := V) ops).len
  exact congrArg some h

/-- the histories on which the code departs from its documentation (C40, C42, C43), with the repairs -/
example :
    (Repair.run (new : ZosditMap (Interval Demo.U8) Nat)
      [.insertStrictBack (Demo.iv 0 5) 1 0, .insertStrictBack (Demo.iv 100 110) 2 0, .removeLastValueAtPoint (Demo.u8 5),
       .cut (Demo.iv 99 101)]).2 =
      [.ok (.strict (.ok ())), .ok (.strict (.ok ())), .ok (.optValue (some 1)), .ok (.entries [(Demo.iv 100 101, 2)])] ∧
    (Repair.run (new : ZosditMap (Interval Demo.U8) Nat)
      [.insertStrictBack (Demo.iv 0 4) 1 0, .removeLastValueAtPoint (Demo.u8 2)]).1.length = 0 := ⟨rfl, rfl⟩
end
end Nodit
