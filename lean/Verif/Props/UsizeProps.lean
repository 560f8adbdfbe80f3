import Verif.Usize
import Verif.Props.Bounds
import Verif.Props.ZosditExact
/-!
# C96: the counter of `ZosditMap` as a `usize`
-/
set_option linter.unusedSectionVars false
namespace Nodit
namespace ZosditMap
open Spec PointType
variable {I K Q V : Type} [PointType I] [IntervalType I K] [IntervalType I Q] [LawfulPoint I] [LawfulInterval I K]

/-! ## wrapping arithmetic -/

/-- the map with the counter reduced -/
def wrapLen (M : Nat) (m : ZosditMap K V) : ZosditMap K V := ⟨m.len % (M + 1), m.inner⟩

theorem wrap_add (M a b : Nat) : (Arith.wrapping M).add (a % (M + 1)) b = .ok ((a + b) % (M + 1)) := by
  simp [Arith.wrapping]

theorem wrap_sub (M a b : Nat) (h : b ≤ a) : (Arith.wrapping M).sub (a % (M + 1)) b = .ok ((a - b) % (M + 1)) := by
  simp only [Arith.wrapping, Except.ok.injEq]
  have hb : b % (M + 1) < M + 1 := Nat.mod_lt _ (by omega)
  obtain ⟨c, rfl⟩ := Nat.exists_eq_add_of_le h
  have e1 : b + c - b = c := by omega
  rw [e1, Nat.add_mod, Nat.mod_mod, ← Nat.add_mod, Nat.add_right_comm]
  have e2 : b + (M + 1 - b % (M + 1)) = (M + 1) * (b / (M + 1) + 1) := by
    have := Nat.div_add_mod b (M + 1)
    rw [Nat.mul_add]; omega
  rw [e2, Nat.mul_add_mod]

theorem cutLoopU_wrapping (M : Nat) (q : Q) {l : List (K × List V)} {len : Nat} {r : List (K × List V) × List (K × V) × Nat}
    (h : cutLoop q len l = .ok r) :
    cutLoopU (Arith.wrapping M) q (len % (M + 1)) l = .ok (r.1, r.2.1, r.2.2 % (M + 1)) := by
  induction l generalizing len r with
  | nil => simp only [cutLoop, pure, Except.pure, Except.ok.injEq] at h; subst h; rfl
  | cons e l ih =>
    obtain ⟨k, vs⟩ := e
    unfold cutLoop at h
    unfold cutLoopU
    simp only [bind, Except.bind, pure, Except.pure] at h ⊢
    cases ho : InclusiveInterval.overlaps k q with
    | error p => rw [ho] at h; cases h
    | ok b =>
      rw [ho] at h
      simp only at h ⊢
      cases b with
      | false => simp only [Bool.not_false, if_true, Except.ok.injEq] at h ⊢; subst h; rfl
      | true =>
        simp only [Bool.not_true, Bool.false_eq_true, if_false] at h ⊢
        cases hc : cutInterval k q with
        | error p => rw [hc] at h; cases h
        | ok c =>
          obtain ⟨cb, ci, ca⟩ := c
          rw [hc] at h
          simp only at h ⊢
          cases cb <;> cases ca <;> simp only [wrap_add] at h ⊢
          all_goals
            split at h
            · cases h
            · rename_i hlt
              rw [wrap_sub _ _ _ (not_lt.1 hlt)]
              simp only
              split at h
              · cases h
              · rename_i res hres
                split at h
                · cases h
                · rename_i r' hr'
                  rw [ih hr']
                  simp only [Except.ok.injEq] at h ⊢
                  subst h
                  rfl

theorem stepU_wrapping (M : Nat) {m : ZosditMap K V} {op : ZOp I K V} {m' : ZosditMap K V} {o : ZOut K V} (h : m.step op = .ok (m', o)) :
    (wrapLen M m).stepU (Arith.wrapping M) op = .ok (wrapLen M m', o) := by
  obtain ⟨len, inner⟩ := m
  change (⟨len % (M + 1), inner⟩ : ZosditMap K V).stepU (Arith.wrapping M) op = _
  cases op with
  | insertStrictBack k v pick =>
    simp only [step, stepU, insertStrictBack, insertStrictBackU, wrapLen, isZeroOverlap] at h ⊢
    simp only [bind, Except.bind, pure, Except.pure] at h ⊢
    cases hi : invalidIntervalPanic k with
    | error p => rw [hi] at h; cases h
    | ok u =>
      rw [hi] at h
      simp only at h ⊢
      split_ifs at h ⊢ with hz
      · simp only [Except.ok.injEq, Prod.mk.injEq] at h ⊢
        obtain ⟨rfl, rfl⟩ := h
        exact ⟨rfl, rfl⟩
      · cases he : entryPush (insertComp k) k v pick inner with
        | error p => rw [he] at h; cases h
        | ok inner =>
          rw [he] at h
          simp only [wrap_add, Except.ok.injEq, Prod.mk.injEq] at h ⊢
          obtain ⟨rfl, rfl⟩ := h
          exact ⟨rfl, rfl⟩
  | removeLastValueAtPoint p =>
    simp only [step, stepU, removeLastValueAtPoint, wrapLen, lastAtPointCursor] at h ⊢
    generalize (if (BTree.lowerBound (exclusiveComp p Ordering.gt) inner).key.isNone = true then _ else _) = c at h ⊢
    simp only [bind, Except.bind, pure, Except.pure] at h ⊢
    split at h
    · cases h
    · rename_i x hx
      split at hx
      · rename_i hc
        simp only [Except.ok.injEq, Prod.mk.injEq] at hx h
        subst hx
        obtain ⟨rfl, rfl⟩ := h
        rfl
      · rename_i key value rest hc
        by_cases hcp : InclusiveInterval.containsPoint key p = true
        · rw [if_pos hcp] at hx ⊢
          split at hx
          · cases hx
          · rename_i last hl
            simp only [Except.ok.injEq, Prod.mk.injEq] at hx h
            subst hx
            obtain ⟨rfl, rfl⟩ := h
            rfl
        · rw [if_neg hcp] at hx ⊢
          simp only [Except.ok.injEq, Prod.mk.injEq] at hx h
          subst hx
          obtain ⟨rfl, rfl⟩ := h
          rfl
  | cut q =>
    simp only [step, stepU, ZosditMap.cut, cutU, wrapLen] at h ⊢
    simp only [bind, Except.bind, pure, Except.pure] at h ⊢
    cases hi : invalidIntervalPanic q with
    | error p => rw [hi] at h; cases h
    | ok u =>
      rw [hi] at h
      simp only at h ⊢
      generalize (if (BTree.upperBound (exclusiveComp (start q) Ordering.lt) inner).key.isNone = true then _ else _) = c at h ⊢
      cases hl : cutLoop q len c.after with
      | error p => rw [hl] at h; cases h
      | ok r =>
        rw [hl] at h
        rw [cutLoopU_wrapping M q hl]
        simp only [Except.ok.injEq, Prod.mk.injEq] at h ⊢
        obtain ⟨rfl, rfl⟩ := h
        exact ⟨rfl, rfl⟩

theorem stepU_bad (A : Arith) {m : ZosditMap K V} {op : ZOp I K V} (h : op.Bad) : m.stepU A op = .error .invalidInterval := by
  cases op with
  | insertStrictBack k v pick =>
    have hk : ¬ Valid k := h
    rw [valid_iff] at hk
    rw [stepU, insertStrictBackU, invalidIntervalPanic_err hk]; rfl
  | removeLastValueAtPoint p => exact h.elim
  | cut q =>
    have hk : ¬ Valid q := h
    rw [valid_iff] at hk
    rw [stepU, cutU, invalidIntervalPanic_err hk]; rfl

theorem runU_wrapping (M : Nat) (ops : List (ZOp I K V)) {m : ZosditMap K V} (h : Good m) :
    (wrapLen M m).runU (Arith.wrapping M) ops = (wrapLen M (m.run ops).1, (m.run ops).2) := by
  induction ops generalizing m with
  | nil => rfl
  | cons op ops ih =>
    rcases step_ok h op with ⟨hb, h1⟩ | ⟨-, m', o, h1, h2, -⟩
    · rw [runU, stepU_bad _ hb, run, h1]
      simp only [ih h]
    · rw [runU, stepU_wrapping M h1, run, h1]
      simp only [ih h2]

/-- **C96**, release builds: for every `usize` and every history, however long, a wrapping counter changes no result and no stored
entry; `len()` is the number of entries plus the number of values removed so far, modulo `usize::MAX + 1`, and `is_empty()` is
whether that is 0. -/
theorem C96_wrapping (M : Nat) (ops : List (ZOp I K V)) :
    let u := (new : ZosditMap K V).runU (Arith.wrapping M) ops
    u.2 = outputs ops ∧ u.1.iter = (after ops).iter ∧
      u.1.length = (u.1.iter.length + u.2.countP isRemoval) % (M + 1) ∧
      (u.1.isEmpty = true ↔ (M + 1) ∣ u.1.iter.length + u.2.countP isRemoval) := by
  have h : (new : ZosditMap K V).runU (Arith.wrapping M) ops = _ := runU_wrapping M ops (good_new (K := K) (V := V) (I := I))
  have hc := (C64_len_exact ops : (after (V := V) ops).length = _ ∧ _).1
  have hlen : ((new : ZosditMap K V).runU (Arith.wrapping M) ops).1.len =
      (((new : ZosditMap K V).runU (Arith.wrapping M) ops).1.iter.length +
        ((new : ZosditMap K V).runU (Arith.wrapping M) ops).2.countP isRemoval) % (M + 1) := by
    rw [h]
    change (after ops).len % (M + 1) = ((after ops).iter.length + (outputs ops).countP isRemoval) % (M + 1)
    rw [← hc]; rfl
  refine ⟨by rw [h]; rfl, by rw [h]; rfl, hlen, ?_⟩
  rw [isEmpty, beq_iff_eq, hlen, Nat.dvd_iff_mod_eq_zero]

/-! ## checked arithmetic -/

theorem check_add {M a b : Nat} (h : a + b ≤ M) : (Arith.checked M).add a b = .ok (a + b) := by simp [Arith.checked, h]
theorem check_sub {M a b : Nat} (h : b ≤ a) : (Arith.checked M).sub a b = .ok (a - b) := by simp [Arith.checked, h]

theorem cutLoopU_stop (A : Arith) {l : List (K × List V)} (h : ZInv l) {q : Q} (hq : start q ≤ stop q)
    (hl : ∀ e ∈ l, stop q < start e.1) (len : Nat) : cutLoopU A q len l = cutLoop q len l := by
  cases l with
  | nil => rfl
  | cons e l =>
    obtain ⟨k, vs⟩ := e
    have h1 : start k ≤ stop k := h.valid (k, vs) (by simp)
    have h2 : stop q < start k := hl (k, vs) (by simp)
    unfold cutLoop cutLoopU
    rw [Nodit.overlaps_ok h1 hq]
    have : ¬ (start k ≤ stop q ∧ start q ≤ stop k) := fun hc => by have := hc.1; order
    simp [this, bind, Except.bind, pure, Except.pure]

theorem cutLoopU_checked {M : Nat} {l : List (K × List V)} (h : ZInv l) {q : Q} (hq : start q ≤ stop q)
    {len : Nat} (hlen : (flatten l).length ≤ len) (hM : len + 2 ≤ M) :
    cutLoopU (Arith.checked M) q len l = cutLoop q len l := by
  induction l generalizing len with
  | nil => rfl
  | cons e l ih =>
    obtain ⟨k, vs⟩ := e
    rw [ZInv.cons] at h
    obtain ⟨h1, h2, h3, h4, h5⟩ := h
    simp only at h1 h2 h3 h4
    unfold cutLoop cutLoopU
    rw [Nodit.overlaps_ok h1 hq]
    simp only [bind, Except.bind, pure, Except.pure]
    rw [flatten_cons, List.length_append, List.length_map] at hlen
    simp only at hlen
    by_cases ho : start k ≤ stop q ∧ start q ≤ stop k
    · rw [cutInterval_ok h1 hq ho]
      simp only [ho, and_self, decide_true, Bool.not_true, Bool.false_eq_true, if_false]
      have hb : ∀ b, (if start k < start q then (down (start q)).map (fun d => (⟨start k, d⟩ : Interval I)) else none) = some b → vs.length ≤ 1 := by
        intro b hb
        split_ifs at hb with hlt
        rcases h3 with h3 | h3
        · exact h3
        · order
      have ha : ∀ a, (if stop q < stop k then (up (stop q)).map (fun u => (⟨u, stop k⟩ : Interval I)) else none) = some a →
          vs.length ≤ 1 ∧ ∀ x ∈ l, stop q < start x.1 := by
        intro a ha
        split_ifs at ha with hlt
        refine ⟨?_, fun x hx => lt_of_lt_of_le hlt (h4 x hx)⟩
        rcases h3 with h3 | h3
        · exact h3
        · order
      generalize (if start k < start q then (down (start q)).map (fun d => (⟨start k, d⟩ : Interval I)) else none) = b at hb
      generalize (if stop q < stop k then (up (stop q)).map (fun u => (⟨u, stop k⟩ : Interval I)) else none) = a at ha
      cases b with
      | none =>
        cases a with
        | none =>
          simp only
          rw [check_sub (by omega), if_neg (by omega)]
          simp only
          rw [ih h5 (by omega) (by omega)]
        | some a =>
          obtain ⟨hv, hs⟩ := ha a rfl
          simp only
          rw [check_add (by omega)]
          simp only
          rw [check_sub (by omega), if_neg (by omega)]
          simp only
          rw [cutLoopU_stop _ h5 hq hs]
      | some b =>
        have hv := hb b rfl
        cases a with
        | none =>
          simp only
          rw [check_add (by omega)]
          simp only
          rw [check_sub (by omega), if_neg (by omega)]
          simp only
          rw [ih h5 (by omega) (by omega)]
        | some a =>
          obtain ⟨-, hs⟩ := ha a rfl
          simp only
          rw [check_add (by omega)]
          simp only
          rw [check_add (by omega)]
          simp only
          rw [check_sub (by omega), if_neg (by omega)]
          simp only
          rw [cutLoopU_stop _ h5 hq hs]
    · simp [ho]

theorem ZInv.suffix {l l' : List (K × List V)} (h : ZInv l) (hs : l' <:+ l) : ZInv l' ∧ (flatten l').length ≤ (flatten l).length := by
  obtain ⟨t, rfl⟩ := hs
  refine ⟨(ZInv.append.1 h).2.1, ?_⟩
  rw [flatten_append, List.length_append]; omega

theorem upperBound_suffix (comp : K → Ordering) (l : List (K × List V)) :
    let c := BTree.upperBound comp l
    (if c.key.isNone then c.moveNext else c).after <:+ l := by
  intro c
  have hs := List.takeWhile_append_dropWhile (p := fun e : K × List V => comp e.1 != .lt) (l := l)
  have hc : c = BTree.upperBound comp l := rfl
  unfold BTree.upperBound at hc
  rcases List.eq_nil_or_concat (l.takeWhile (fun e => comp e.1 != .lt)) with h | ⟨pre, e, h⟩
  · rw [h] at hc
    rw [hc]
    simp [BTree.Cursor.key, BTree.Cursor.moveNext]
  · rw [h, List.concat_eq_append] at hc hs
    simp only [List.getLast?_concat, List.dropLast_concat] at hc
    rw [hc]
    simp only [BTree.Cursor.key, List.head?_cons, Option.map_some, Option.isNone_some, Bool.false_eq_true, if_false]
    exact ⟨pre, by simpa using hs⟩

theorem stepU_checked {M : Nat} {m : ZosditMap K V} (h : Good m) (op : ZOp I K V)
    (hM : m.len + (if isInsert op then 1 else 0) + (if op.isCut then 2 else 0) ≤ M) :
    m.stepU (Arith.checked M) op = m.step op := by
  cases op with
  | insertStrictBack k v pick =>
    simp only [isInsert, ZOp.isCut, if_true, Bool.false_eq_true, if_false] at hM
    simp only [step, stepU, insertStrictBack, insertStrictBackU]
    rw [check_add (by omega)]
    rfl
  | removeLastValueAtPoint p => rfl
  | cut q =>
    simp only [isInsert, ZOp.isCut, if_true, Bool.false_eq_true, if_false] at hM
    simp only [step, stepU, ZosditMap.cut, cutU]
    by_cases hq : start q ≤ stop q
    · obtain ⟨h1, h2⟩ := h.inv.suffix (upperBound_suffix (exclusiveComp (start q) .lt) m.inner)
      have h3 := h.len
      rw [cutLoopU_checked h1 hq (by simp only [iter] at h3; omega) (by omega)]
    · rw [invalidIntervalPanic_err hq]
      rfl

/-- one call increases the counter by at most one -/
theorem step_len {m : ZosditMap K V} (h : Good m) {op : ZOp I K V} {m' : ZosditMap K V} {o : ZOut K V} (hs : m.step op = .ok (m', o)) :
    m'.len ≤ m.len + (if isInsert op then 1 else 0) + (if op.isCut then 1 else 0) := by
  rcases step_ok h op with ⟨-, h1⟩ | ⟨-, m1, o1, h1, -, h3, h4, -⟩
  · rw [h1] at hs; cases hs
  · rw [h1] at hs
    simp only [Except.ok.injEq, Prod.mk.injEq] at hs
    obtain ⟨rfl, rfl⟩ := hs
    rcases zstep_growth h op with h2 | ⟨m2, o2, h2, -, h5⟩
    · rw [h1] at h2; cases h2
    · rw [h1] at h2
      simp only [Except.ok.injEq, Prod.mk.injEq] at h2
      obtain ⟨rfl, rfl⟩ := h2
      cases op with
      | removeLastValueAtPoint p =>
        rcases last_ok h.inv p with ⟨-, e, -⟩ | ⟨v, m'', l1, k, l2, -, e, -, -, -, -, e5, -⟩
        · simp only [step, e, bind, Except.bind, pure, Except.pure, Except.ok.injEq, Prod.mk.injEq] at h1
          obtain ⟨rfl, -⟩ := h1
          omega
        · simp only [step, e, bind, Except.bind, pure, Except.pure, Except.ok.injEq, Prod.mk.injEq] at h1
          obtain ⟨rfl, -⟩ := h1
          omega
      | insertStrictBack k v pick =>
        have : isRemoval (.ok o1) = false := by
          by_contra hc
          have := h4 (by simpa using hc)
          cases this
        simp only [this, Bool.false_eq_true, if_false] at h3
        omega
      | cut q =>
        have : isRemoval (.ok o1) = false := by
          by_contra hc
          have := h4 (by simpa using hc)
          cases this
        simp only [this, Bool.false_eq_true, if_false] at h3
        omega

theorem runU_checked {M : Nat} (ops : List (ZOp I K V)) {m : ZosditMap K V} (h : Good m)
    (hM : m.len + ops.countP isInsert + ops.countP ZOp.isCut + min 1 (ops.countP ZOp.isCut) ≤ M) :
    m.runU (Arith.checked M) ops = m.run ops ∧ ∀ o ∈ (m.run ops).2, o ≠ .error .overflow := by
  induction ops generalizing m with
  | nil => exact ⟨rfl, by simp [run]⟩
  | cons op ops ih =>
    have hM' : m.len + (if isInsert op then 1 else 0) + (if op.isCut then 1 else 0) + ops.countP isInsert + ops.countP ZOp.isCut +
        min 1 (ops.countP ZOp.isCut + (if op.isCut then 1 else 0)) ≤ M := by
      simp only [List.countP_cons] at hM; omega
    have hst : m.len + (if isInsert op then 1 else 0) + (if op.isCut then 2 else 0) ≤ M := by
      by_cases hc : op.isCut = true
      · simp only [hc, if_true] at hM' ⊢; omega
      · rw [if_neg hc]; omega
    rcases step_ok h op with ⟨hb, h1⟩ | ⟨-, m', o, h1, h2, -⟩
    · obtain ⟨i1, i2⟩ := ih h (by omega)
      rw [runU, stepU_checked h op hst, run, h1]
      refine ⟨by simp only [i1], ?_⟩
      intro o ho
      rcases List.mem_cons.1 ho with rfl | ho
      · simp
      · exact i2 o ho
    · have hl := step_len h h1
      obtain ⟨i1, i2⟩ := ih h2 (by omega)
      rw [runU, stepU_checked h op hst, run, h1]
      refine ⟨by simp only [i1], ?_⟩
      intro o ho
      rcases List.mem_cons.1 ho with rfl | ho
      · simp
      · exact i2 o ho

/-- **C96**, debug builds: as long as the number of inserts and cuts made is below `usize::MAX` (removals do not count; without cuts,
at most `usize::MAX` inserts), the counter never overflows, not even inside a call, and everything is as with unbounded counters. -/
theorem C96_checked (M : Nat) (ops : List (ZOp I K V))
    (hM : ops.countP isInsert + ops.countP ZOp.isCut + min 1 (ops.countP ZOp.isCut) ≤ M) :
    let u := (new : ZosditMap K V).runU (Arith.checked M) ops
    u.1 = after ops ∧ u.2 = outputs ops ∧ ∀ o ∈ u.2, o ≠ .error .overflow := by
  obtain ⟨h1, h2⟩ := runU_checked (M := M) ops (good_new (K := K) (V := V) (I := I)) (by
    have : (new : ZosditMap K V).len = 0 := rfl
    omega)
  simp only [h1]
  exact ⟨rfl, rfl, h2⟩

/-! ## examples -/
section
open Demo

/-- a history with a cut, an insert and a removal; in a 2-bit counter the hypothesis of `C96_checked` holds -/
example : let ops : List (ZOp U8 (Interval U8) Nat) := [.insertStrictBack (iv 0 10) 1 0, .cut (iv 5 5), .removeLastValueAtPoint (u8 7)]
    ops.countP isInsert + ops.countP ZOp.isCut + min 1 (ops.countP ZOp.isCut) ≤ 3 ∧
    ((new : ZosditMap (Interval U8) Nat).runU (Arith.checked 3) ops).1.iter = [(iv 0 4, 1)] := by
  decide

/-- the bound cannot be lowered: with `usize::MAX = 2` the same insert and cut panic, although at no time are there more than two entries -/
example : ((new : ZosditMap (Interval U8) Nat).runU (Arith.checked 2) [.insertStrictBack (iv 0 10) 1 0, .cut (iv 5 5)]).2 =
    [.ok (.strict (.ok ())), .error .overflow] := by
  rfl

/-- insert a value and take it out again -/
def pushPop : List (ZOp U8 (Interval U8) Nat) := [.insertStrictBack (iv 3 3) 1 0, .removeLastValueAtPoint (u8 3)]

theorem pushPop_run (A : Arith) (n n' : Nat) (hA : A.add n 1 = .ok n') (ops : List (ZOp U8 (Interval U8) Nat)) :
    ((⟨n, []⟩ : ZosditMap (Interval U8) Nat).runU A (pushPop ++ ops)) =
      (((⟨n', []⟩ : ZosditMap (Interval U8) Nat).runU A ops).1,
        .ok (.strict (.ok ())) :: .ok (.optValue (some 1)) :: ((⟨n', []⟩ : ZosditMap (Interval U8) Nat).runU A ops).2) := by
  have h1 : (⟨n, []⟩ : ZosditMap (Interval U8) Nat).stepU A (.insertStrictBack (iv 3 3) 1 0 : ZOp U8 (Interval U8) Nat) =
      .ok (⟨n', [(iv 3 3, [1])]⟩, .strict (.ok ())) := by
    have e : (⟨n, []⟩ : ZosditMap (Interval U8) Nat).stepU A (.insertStrictBack (iv 3 3) 1 0 : ZOp U8 (Interval U8) Nat) =
      (A.add n 1).bind (fun n' => .ok (⟨n', [(iv 3 3, [1])]⟩, .strict (.ok ()))) := by
      cases hc : A.add n 1 <;> simp [stepU, insertStrictBackU, hc] <;> rfl
    rw [e, hA]; rfl
  have h2 : (⟨n', [(iv 3 3, [1])]⟩ : ZosditMap (Interval U8) Nat).stepU A (.removeLastValueAtPoint (u8 3) : ZOp U8 (Interval U8) Nat) =
      .ok (⟨n', []⟩, .optValue (some 1)) := rfl
  simp only [pushPop, List.cons_append, List.nil_append, runU, h1, h2]

theorem pushPops_wrapping (M : Nat) (j n : Nat) (ops : List (ZOp U8 (Interval U8) Nat)) (hn : n + j ≤ M) :
    ∃ os, (⟨n, []⟩ : ZosditMap (Interval U8) Nat).runU (Arith.wrapping M) ((List.replicate j pushPop).flatten ++ ops) =
      (((⟨n + j, []⟩ : ZosditMap (Interval U8) Nat).runU (Arith.wrapping M) ops).1,
        os ++ ((⟨n + j, []⟩ : ZosditMap (Interval U8) Nat).runU (Arith.wrapping M) ops).2) := by
  induction j generalizing n with
  | zero => exact ⟨[], rfl⟩
  | succ j ih =>
    obtain ⟨os, h⟩ := ih (n + 1) (by omega)
    refine ⟨.ok (.strict (.ok ())) :: .ok (.optValue (some 1)) :: os, ?_⟩
    rw [List.replicate_succ, List.flatten_cons, List.append_assoc, pushPop_run _ n (n + 1) (by
      simp only [Arith.wrapping]; rw [Nat.mod_eq_of_lt (by omega)]), h]
    simp only [List.cons_append, show n + 1 + j = n + (j + 1) by omega]

theorem pushPops_checked (M : Nat) (j n : Nat) (ops : List (ZOp U8 (Interval U8) Nat)) (hn : n + j ≤ M) :
    ∃ os, (⟨n, []⟩ : ZosditMap (Interval U8) Nat).runU (Arith.checked M) ((List.replicate j pushPop).flatten ++ ops) =
      (((⟨n + j, []⟩ : ZosditMap (Interval U8) Nat).runU (Arith.checked M) ops).1,
        os ++ ((⟨n + j, []⟩ : ZosditMap (Interval U8) Nat).runU (Arith.checked M) ops).2) := by
  induction j generalizing n with
  | zero => exact ⟨[], rfl⟩
  | succ j ih =>
    obtain ⟨os, h⟩ := ih (n + 1) (by omega)
    refine ⟨.ok (.strict (.ok ())) :: .ok (.optValue (some 1)) :: os, ?_⟩
    rw [List.replicate_succ, List.flatten_cons, List.append_assoc, pushPop_run _ n (n + 1) (check_add (by omega)), h]
    simp only [List.cons_append, show n + 1 + j = n + (j + 1) by omega]

/-- at no time is there more than one entry -/
theorem pushPops_small (M n : Nat) {ops : List (ZOp U8 (Interval U8) Nat)}
    (h : ops <+: (List.replicate M pushPop).flatten ++ [.insertStrictBack (iv 3 3) 1 0]) :
    ((⟨n, []⟩ : ZosditMap (Interval U8) Nat).run ops).1.iter.length ≤ 1 := by
  induction M generalizing n ops with
  | zero =>
    have := h.length_le
    rcases ops with - | ⟨a, - | ⟨b, ops⟩⟩
    · simp [run, iter, flatten]
    · simp only [List.replicate_zero, List.flatten_nil, List.nil_append, List.cons_prefix_cons, List.nil_prefix, and_true] at h
      subst h
      exact Nat.le_refl 1
    · simp at this
  | succ M ih =>
    rw [List.replicate_succ, List.flatten_cons, List.append_assoc] at h
    rcases ops with - | ⟨a, - | ⟨b, ops⟩⟩
    · simp [run, iter, flatten]
    · simp only [pushPop, List.cons_append, List.cons_prefix_cons] at h
      obtain ⟨rfl, -⟩ := h
      exact Nat.le_refl 1
    · simp only [pushPop, List.cons_append, List.nil_append, List.cons_prefix_cons] at h
      obtain ⟨rfl, rfl, h⟩ := h
      exact ih (n + 1) h

/-- **C96**: the bound of `C96_checked` is on the calls ever made, not on what the map holds. For every `usize`: after `usize::MAX` times
inserting one value and removing it again, one more insert panics in a debug build, and in a release build leaves a map that says
it is empty although it holds an entry. At no time has the map held more than one entry. -/
theorem C96_pushing_and_popping (M : Nat) :
    let ops := (List.replicate M pushPop).flatten ++ [.insertStrictBack (iv 3 3) 1 0]
    (∀ sofar, sofar <+: ops → (after sofar : ZosditMap (Interval U8) Nat).iter.length ≤ 1) ∧
    ((new : ZosditMap (Interval U8) Nat).runU (Arith.checked M) ops).2.getLast? = some (.error .overflow) ∧
    ((new : ZosditMap (Interval U8) Nat).runU (Arith.wrapping M) ops).1.isEmpty = true ∧
    ((new : ZosditMap (Interval U8) Nat).runU (Arith.wrapping M) ops).1.iter = [(iv 3 3, 1)] := by
  intro ops
  obtain ⟨os, h1⟩ := pushPops_checked M M 0 [.insertStrictBack (iv 3 3) 1 0] (by omega)
  obtain ⟨os', h2⟩ := pushPops_wrapping M M 0 [.insertStrictBack (iv 3 3) 1 0] (by omega)
  have e1 : (⟨0 + M, []⟩ : ZosditMap (Interval U8) Nat).stepU (Arith.checked M) (.insertStrictBack (iv 3 3) 1 0 : ZOp U8 (Interval U8) Nat) = .error .overflow := by
    have : (Arith.checked M).add M 1 = .error .overflow := by simp [Arith.checked]
    rw [Nat.zero_add]
    simp [stepU, insertStrictBackU, this]; rfl
  have e2 : (⟨0 + M, []⟩ : ZosditMap (Interval U8) Nat).stepU (Arith.wrapping M) (.insertStrictBack (iv 3 3) 1 0 : ZOp U8 (Interval U8) Nat) =
      .ok (⟨0, [(iv 3 3, [1])]⟩, .strict (.ok ())) := by
    have : (Arith.wrapping M).add M 1 = .ok 0 := by simp [Arith.wrapping]
    rw [Nat.zero_add]
    simp [stepU, insertStrictBackU, this]; rfl
  refine ⟨fun sofar h => pushPops_small M 0 h, ?_, ?_, ?_⟩
  · change ((⟨0, []⟩ : ZosditMap (Interval U8) Nat).runU (Arith.checked M) ops).2.getLast? = _
    rw [h1]
    simp only [runU, e1]
    simp
  · change ((⟨0, []⟩ : ZosditMap (Interval U8) Nat).runU (Arith.wrapping M) ops).1.isEmpty = _
    rw [h2]
    simp only [runU, e2]
    rfl
  · change ((⟨0, []⟩ : ZosditMap (Interval U8) Nat).runU (Arith.wrapping M) ops).1.iter = _
    rw [h2]
    simp only [runU, e2]
    rfl
end

end ZosditMap
end Nodit
