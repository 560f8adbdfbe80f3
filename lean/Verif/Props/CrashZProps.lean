import Verif.CrashZ
import Verif.Props.CrashProps
import Verif.Props.ZosditExact
/-!
# C80: panics of user code in the middle of a `ZosditMap` call
-/
set_option linter.unusedSectionVars false
namespace Nodit
open Spec PointType ZosditMap

namespace Crash
open Act
variable {I K Q V : Type} [PointType I] [IntervalType I K] [IntervalType I Q]
  [LawfulPoint I] [LawfulInterval I K]

/-- the state the loop of `cut` on `l` may be left in by a panic of user code -/
def ZLeft (q : Q) (len : Nat) (b l : List (K × List V)) (s : ZCur K V) : Prop :=
  ∃ l₁ mid part l₂ ph, l = l₁ ++ mid ++ l₂ ∧ (∀ e ∈ l₁ ++ mid, ovl q e = true) ∧ mid.length ≤ 1 ∧
    part <+: mid.flatMap (cutOut q) ∧ s.2.entries = b ++ l₁.flatMap (cutOut q) ++ part ++ l₂ ∧
    s.1 + (flatten l).length = len + (flatten (l₁.flatMap (cutOut q) ++ part ++ l₂)).length + ph ∧
    (ph = (flatten mid).length ∨ ph = 2 * (flatten mid).length ∧ part ≠ mid.flatMap (cutOut q))

theorem zPutBefore_sat {store : List V} {part : Option (Interval I)} {len : Nat} {b l : List (K × List V)}
    {C : ZCur K V → Prop} {E : Panic → ZCur K V → Prop} (hC : C (len, ⟨b, l⟩)) :
    Sat (zPutBefore store part) (len, ⟨b, l⟩)
      (fun _ s => s = (len + (flatten (pieceOf (K := K) store part)).length, ⟨b ++ pieceOf store part, l⟩)) C E := by
  cases part with
  | none => exact sat_pure (by simp [pieceOf, flatten])
  | some i =>
    unfold zPutBefore
    refine sat_user hC ?_
    apply sat_get
    apply sat_set
    apply sat_get
    refine sat_set' ?_
    simp [pieceOf, flatten, BTree.Cursor.insertBefore]

theorem zPutAfter_sat {store : List V} {part : Option (Interval I)} {len : Nat} {b l : List (K × List V)}
    {C : ZCur K V → Prop} {E : Panic → ZCur K V → Prop} (hC : part ≠ none → C (len + store.length, ⟨b, l⟩)) :
    Sat (zPutAfter store part) (len, ⟨b, l⟩)
      (fun _ s => s = (len + (flatten (pieceOf (K := K) store part)).length, ⟨b ++ pieceOf store part, l⟩)) C E := by
  cases part with
  | none => exact sat_pure (by simp [pieceOf, flatten])
  | some i =>
    unfold zPutAfter
    apply sat_get
    apply sat_set
    refine sat_user (hC (by simp)) ?_
    apply sat_get
    refine sat_set' ?_
    simp [pieceOf, flatten, BTree.Cursor.insertBefore]

theorem mapM_inside (store : List V) (i : Interval I) :
    (store.mapM (fun v => do pure ((ofInterval (← unwrap (some i)) : K), v)) : Res (List (K × V))) =
      .ok (store.map (fun v => (ofInterval i, v))) := by
  simp only [unwrap, bind, Except.bind, pure, Except.pure]
  induction store with
  | nil => rfl
  | cons v vs ih => simp [List.mapM_cons, bind, Except.bind, pure, Except.pure, ih]

theorem zCutLoop_sat {q : Q} (hq : start q ≤ stop q) {b l : List (K × List V)} (h : ZInv l)
    (hl : ∀ e ∈ l, start q ≤ stop e.1) {n : Nat} (hn : l.length < n) {len : Nat} (hlen : (flatten l).length ≤ len) :
    Sat (zCutLoop q n) (len, ⟨b, l⟩)
      (fun r s => s.2.entries = b ++ l.flatMap (cutOut q) ∧ r = flatten (l.flatMap (cutIn q)) ∧
        s.1 + (flatten l).length = len + (flatten (l.flatMap (cutOut q))).length)
      (ZLeft q len b l) (fun _ _ => False) := by
  induction n generalizing b l len with
  | zero => omega
  | succ n ih =>
    unfold zCutLoop
    apply sat_get
    cases l with
    | nil => exact sat_pure ⟨by simp [BTree.Cursor.entries], rfl, by simp⟩
    | cons e l =>
      have hc := h
      rw [ZInv.cons] at h
      obtain ⟨h1, h2, h3, h4, h5⟩ := h
      have hle : start q ≤ stop e.1 := hl e (by simp)
      simp only [BTree.Cursor.key, List.head?_cons, Option.map_some]
      refine sat_user ?_ ?_
      · exact ⟨[], [], [], e :: l, 0, rfl, by simp, by simp, by simp, by simp [BTree.Cursor.entries], by simp,
          by simp [flatten]⟩
      · refine sat_res (Nodit.overlaps_ok h1 hq) ?_
        by_cases ho : ovl q e = true
        · have ho2 : start e.1 ≤ stop q ∧ start q ≤ stop e.1 := by
            simpa only [ovl, decide_eq_true_eq] using ho
          rw [if_neg (by simp [ho2])]
          simp only [BTree.Cursor.removeCurrent]
          apply sat_set
          refine sat_res (a := e) rfl ?_
          obtain ⟨key, store⟩ := e
          simp only
          rw [flatten_cons, List.length_append, List.length_map] at hlen
          simp only at hlen h1 h2 h3
          have crash : ∀ (part : List (K × List V)) (len' : Nat), part <+: cutOut q (key, store) →
              (len' = len + (flatten part).length ∨ len' = len + (flatten part).length + store.length ∧ part ≠ cutOut q (key, store)) →
              ZLeft q len b ((key, store) :: l) (len', ⟨b ++ part, l⟩) := by
            intro part len' hp hlen'
            have hf : (flatten [(key, store)]).length = store.length := by simp [flatten]
            refine ⟨[], [(key, store)], part, l, len' - len - (flatten part).length + store.length, rfl, by simpa using ho, by simp, by simpa using hp,
              by simp [BTree.Cursor.entries], ?_, ?_⟩
            · simp only [flatten_cons, List.length_append, List.length_map, List.flatMap_nil, List.nil_append, flatten_append]
              omega
            · rw [hf]
              simp only [List.flatMap_cons, List.flatMap_nil, List.append_nil]
              rcases hlen' with h | ⟨h, h'⟩
              · left; omega
              · right; exact ⟨by omega, h'⟩
          have crash0 : ZLeft q len b ((key, store) :: l) (len, ⟨b, l⟩) := by
            simpa using crash [] len (List.nil_prefix) (by simp [flatten])
          refine sat_user crash0 ?_
          refine sat_res (cutInterval_ok h1 hq ho2) ?_
          simp only
          have hout := cutOut_of_ovl' ho
          simp only at hout
          generalize (if start key < start q then (down (start q)).map (fun d => (⟨start key, d⟩ : Interval I)) else none)
            = p1 at hout ⊢
          generalize (if stop q < stop key then (up (stop q)).map (fun u => (⟨u, stop key⟩ : Interval I)) else none)
            = p2 at hout ⊢
          refine sat_bind (zPutBefore_sat crash0) ?_
          rintro - s rfl
          refine sat_bind (zPutAfter_sat ?_) ?_
          · intro hp2
            refine crash (pieceOf store p1) _ (by rw [hout]; exact List.prefix_append _ _) (Or.inr ⟨rfl, ?_⟩)
            rw [hout]
            intro hc
            have hc := congrArg List.length hc
            cases p2 with
            | none => exact hp2 rfl
            | some i => simp [pieceOf] at hc
          rintro - s rfl
          apply sat_get
          simp only
          have hlo : (flatten (cutOut q (key, store))).length =
              (flatten (pieceOf (K := K) store p1)).length + (flatten (pieceOf (K := K) store p2)).length := by
            rw [hout, flatten_append, List.length_append]
          rw [if_neg (by omega)]
          apply sat_set
          rw [List.append_assoc, ← hout]
          refine sat_user ?_ ?_
          · refine ⟨[(key, store)], [], [], l, 0, rfl, by simpa using ho, by simp, by simp, by simp [BTree.Cursor.entries], ?_, by simp [flatten]⟩
            simp only [flatten_cons, List.length_append, List.length_map, List.flatMap_cons, List.flatMap_nil, List.append_nil, flatten_append]
            omega
          refine sat_res (mapM_inside store _) ?_
          generalize hlen' : len + (flatten (pieceOf (K := K) store p1)).length + (flatten (pieceOf (K := K) store p2)).length - store.length = len'
          have hlen'' : len' + store.length = len + (flatten (cutOut q (key, store))).length := by omega
          refine sat_bind (Q := fun r (s : ZCur K V) => s.2.entries = b ++ cutOut q (key, store) ++ l.flatMap (cutOut q) ∧
            r = flatten (l.flatMap (cutIn q)) ∧ s.1 + (flatten l).length = len' + (flatten (l.flatMap (cutOut q))).length) ?_ ?_
          · refine sat_weaken (ih h5 (fun x hx => hl x (by simp [hx])) (by simpa using hn) (by omega)) (fun _ _ h => h) ?_ (fun _ _ h => h)
            rintro s ⟨l₁, mid, part, l₂, ph, rfl, h2, h3, h4, h5, h6, h7⟩
            refine ⟨(key, store) :: l₁, mid, part, l₂, ph, rfl, ?_, h3, h4, ?_, ?_, h7⟩
            · intro x hx
              rcases List.mem_append.1 hx with hx | hx
              · rcases List.mem_cons.1 hx with rfl | hx
                · exact ho
                · exact h2 x (List.mem_append_left _ hx)
              · exact h2 x (List.mem_append_right _ hx)
            · rw [h5]; simp
            · simp only [flatten_cons, List.length_append, List.length_map, List.flatMap_cons, flatten_append] at *
              omega
          · rintro r s ⟨g1, g2, g3⟩
            apply sat_pure
            refine ⟨?_, ?_, ?_⟩
            · rw [g1, List.flatMap_cons, List.append_assoc]
            · rw [g2, List.flatMap_cons, flatten_append]
              simp [cutIn, ho, flatten]
            · simp only [flatten_cons, List.length_append, List.length_map, List.flatMap_cons, flatten_append] at *
              omega
        · have ho2 : ¬ (start e.1 ≤ stop q ∧ start q ≤ stop e.1) := by
            simpa only [ovl, decide_eq_true_eq] using ho
          have ho3 : (!decide (start e.1 ≤ stop q ∧ start q ≤ stop e.1)) = true := by rw [decide_eq_false ho2]; rfl
          rw [if_pos ho3]
          apply sat_pure
          obtain ⟨len', hall, hlen'⟩ := ZosditMap.cutLoop_ok hc hq hl hlen
          obtain ⟨k, vs⟩ := e
          unfold ZosditMap.cutLoop at hall
          rw [Nodit.overlaps_ok h1 hq] at hall
          simp only [bind, Except.bind, pure, Except.pure] at hall
          rw [if_pos ho3] at hall
          injection hall with hall
          injection hall with g1 g2
          injection g2 with g2 g3
          subst g3
          exact ⟨by rw [← g1]; rfl, by rw [← g2], hlen'⟩

/-- where the cursor of `cut` starts, and what that means -/
theorem zCursor_split {l : List (K × List V)} (h : ZInv l) {q : Q} (hq : start q ≤ stop q) :
    ∃ b a, (let c := BTree.upperBound (exclusiveComp (start q) .lt) l
        if c.key.isNone then c.moveNext else c) = ⟨b, a⟩ ∧ l = b ++ a ∧
      ((∃ e a', a = e :: a' ∧ stop e.1 < start q) ∨
        ((∀ e ∈ l, start q ≤ start e.1) ∨ ∃ e ∈ l, start e.1 < start q ∧ start q ≤ stop e.1) ∧
          (∀ e ∈ b, ovl q e = false) ∧ ∀ e ∈ a, start q ≤ stop e.1) := by
  unfold BTree.upperBound
  have hanti : l.Pairwise (fun a b => (exclusiveComp (start q) .lt b.1 != .lt) = true → (exclusiveComp (start q) .lt a.1 != .lt) = true) := by
    refine List.Pairwise.imp_of_mem ?_ h.seq
    intro a b ha hb hab
    rw [exclusive_lt (h.valid a ha), exclusive_lt (h.valid b hb), decide_eq_true_eq, decide_eq_true_eq]
    intro h1; have := h.valid a ha; order
  have hsplit := List.takeWhile_append_dropWhile (p := fun e : K × List V => exclusiveComp (start q) .lt e.1 != .lt) (l := l)
  have hpre : ∀ e ∈ l.takeWhile (fun e => exclusiveComp (start q) .lt e.1 != .lt), start e.1 < start q := by
    intro e he
    rw [takeWhile_eq_filter hanti] at he
    have h2 := (List.mem_filter.1 he).2
    rw [exclusive_lt (h.valid e (List.mem_filter.1 he).1)] at h2
    simpa using h2
  have hpost : ∀ e ∈ l.dropWhile (fun e => exclusiveComp (start q) .lt e.1 != .lt), start q ≤ start e.1 := by
    intro e he
    rw [dropWhile_eq_filter hanti] at he
    have h2 := (List.mem_filter.1 he).2
    rw [exclusive_lt (h.valid e (List.mem_filter.1 he).1)] at h2
    simpa using h2
  generalize l.takeWhile (fun e => exclusiveComp (start q) .lt e.1 != .lt) = pre at hsplit hpre
  generalize l.dropWhile (fun e => exclusiveComp (start q) .lt e.1 != .lt) = post at hsplit hpost
  clear hanti
  rcases List.eq_nil_or_concat pre with rfl | ⟨pre, e, rfl⟩
  · rw [List.nil_append] at hsplit
    subst hsplit
    refine ⟨[], post, by simp [BTree.Cursor.key, BTree.Cursor.moveNext], rfl,
      Or.inr ⟨Or.inl hpost, by simp, fun e he => le_trans (hpost e he) (h.valid e he)⟩⟩
  · rw [List.concat_eq_append] at hsplit hpre ⊢
    have hs := hsplit
    rw [List.append_assoc, List.singleton_append] at hsplit
    have hz := h
    rw [← hsplit, ZInv.append, ZInv.cons] at hz
    obtain ⟨z1, ⟨z2, z3, z4, z5, z6⟩, z7⟩ := hz
    have hes := hpre e (by simp)
    refine ⟨pre, e :: post, by simp [BTree.Cursor.key], hsplit.symm, ?_⟩
    by_cases hr : start q ≤ stop e.1
    · right
      refine ⟨Or.inr ⟨e, by rw [← hsplit]; simp, hes, hr⟩, ?_, ?_⟩
      · intro x hx
        have := z7 x hx e (by simp)
        have : ¬ start q ≤ stop x.1 := by order
        simp [ovl, this]
      · intro x hx
        rcases List.mem_cons.1 hx with rfl | hx
        · exact hr
        · exact le_trans (hpost x hx) (z6.valid x hx)
    · exact Or.inl ⟨e, post, rfl, not_le.1 hr⟩

theorem not_cutMisses {m : ZosditMap K V} (hg : ZInv m.inner) {q : Q} (hq : start q ≤ stop q)
    (h : (∀ e ∈ m.inner, start q ≤ start e.1) ∨ ∃ e ∈ m.inner, start e.1 < start q ∧ start q ≤ stop e.1) :
    ¬ CutMisses m.iter q := by
  have hv := hg.flat.1
  rintro ⟨⟨e, he, p, hp, hp'⟩, h4⟩
  rcases h with h | ⟨d, hd, h5, h6⟩
  · have := (hg.forall_iff (fun x => start q ≤ start x)).1 h e he
    have := hp' _ ⟨le_refl _, hq⟩
    have := hp.1
    order
  · have := (hg.forall_iff (fun x => start x < start q → ¬ start q ≤ stop x)).2 (fun f hf hlt hle =>
      h4 f hf ⟨start f.1, ⟨le_refl _, hv f hf⟩, fun x hx => lt_of_lt_of_le hlt hx.1⟩
        ((overlap_iff (hv f hf) hq).2 ⟨by order, hle⟩))
    exact this d hd h5 h6

theorem zPlace_sat {q : Q} {m : ZosditMap K V} {Q' : List (K × V) → ZosditMap K V → Prop} {C : ZosditMap K V → Prop}
    {E : Panic → ZosditMap K V → Prop} {b a : List (K × List V)}
    (hc : (let c := BTree.upperBound (exclusiveComp (start q) .lt) m.inner
        if c.key.isNone then c.moveNext else c) = ⟨b, a⟩)
    (h : Sat (zCutLoop q (a.length + 1)) (m.len, ⟨b, a⟩)
      (fun r s => Q' r ⟨s.1, s.2.entries⟩) (fun s => C ⟨s.1, s.2.entries⟩) (fun p s => E p ⟨s.1, s.2.entries⟩)) :
    Sat (fun m n =>
      let c := BTree.upperBound (exclusiveComp (start q) .lt) m.inner
      let c := if c.key.isNone then c.moveNext else c
      let r := zCutLoop q (c.after.length + 1) (m.len, c) n
      (r.1, ⟨r.2.1.1, r.2.1.2.entries⟩, r.2.2)) m Q' C E := by
  intro n
  have h := h n
  revert h
  simp only at hc ⊢
  rw [hc]
  rcases zCutLoop q (a.length + 1) (m.len, ⟨b, a⟩) n with ⟨(e | a), s', n'⟩
  · cases e <;> exact id
  · exact id

theorem flatten_ne {l l' : List (K × List V)} (h : ∀ e ∈ l', e.2 ≠ []) (hp : l <+: l') (hne : l ≠ l') : flatten l ≠ flatten l' := by
  obtain ⟨t, rfl⟩ := hp
  cases t with
  | nil => simp at hne
  | cons e t =>
    have := h e (by simp)
    rw [flatten_append, flatten_cons]
    intro hc
    have hc := congrArg List.length hc
    have := List.length_pos_iff.2 this
    simp only [List.length_append, List.length_map] at hc
    omega

theorem mem_cutOut_list {q : Q} (hq : start q ≤ stop q) {l : List (K × List V)} (h : ZInv l) {x : K × List V}
    (hx : x ∈ l.flatMap (cutOut q)) : ∃ d ∈ l, start d.1 ≤ start x.1 ∧ stop x.1 ≤ stop d.1 := by
  obtain ⟨d, hd, hx⟩ := List.mem_flatMap.1 hx
  have hd' : ZInv [d] := ⟨by simpa using h.valid d hd, by simpa using h.store d hd, by simp, by simpa using h.multi d hd⟩
  exact ⟨d, hd, (cutOut_inv hq hd').2 x hx⟩

theorem zCut_sat {q : Q} {m : ZosditMap K V} {s : ZState K V} (h : Represents m s) {E : Panic → ZosditMap K V → Prop}
    (hE : ¬ Valid q → E .invalidInterval m) :
    Sat (zCut q) m (fun r m' => m.cut q = .ok (m', r) ∧ Valid q)
      (fun m' => ∃ s', Represents m' s' ∧ (s' = s ∨ Valid q ∧ ¬ CutMisses s.entries q ∧ ZPartlyCut q s s')) E := by
  obtain ⟨hg, he, hl, hn⟩ := h
  have same : ∃ s', Represents m s' ∧ (s' = s ∨ Valid q ∧ ¬ CutMisses s.entries q ∧ ZPartlyCut q s s') :=
    ⟨s, ⟨hg, he, hl, hn⟩, Or.inl rfl⟩
  unfold zCut
  refine sat_user same ?_
  refine sat_check hE ?_
  intro hv
  have hq := valid_iff.1 hv
  refine sat_user same ?_
  obtain ⟨b, a, hc, hba, hcase⟩ := zCursor_split hg.inv hq
  refine zPlace_sat hc ?_
  have hz := hg.inv
  rw [hba, ZInv.append] at hz
  obtain ⟨zb, za, zba⟩ := hz
  rcases hcase with ⟨e, a', rfl, hlt⟩ | ⟨hmiss, hb, ha⟩
  · have h1 := (ZInv.cons.1 za).1
    have hno : ¬ (start e.1 ≤ stop q ∧ start q ≤ stop e.1) := fun hc => by have := hc.2; order
    unfold zCutLoop
    apply sat_get
    simp only [BTree.Cursor.key, List.head?_cons, Option.map_some]
    have hm : (⟨m.len, (⟨b, e :: a'⟩ : BTree.Cursor K (List V)).entries⟩ : ZosditMap K V) = m := by
      cases m; simp only at hba; simp [BTree.Cursor.entries, hba]
    refine sat_user (by simp only; rw [hm]; exact same) ?_
    refine sat_res (Nodit.overlaps_ok h1 hq) ?_
    rw [if_pos (by rw [decide_eq_false hno]; rfl)]
    refine sat_pure ?_
    simp only
    rw [hm]
    refine ⟨?_, hv⟩
    unfold ZosditMap.cut
    rw [invalidIntervalPanic_ok hq]
    simp only [bind, Except.bind, pure, Except.pure]
    simp only at hc
    rw [hc]
    obtain ⟨k, vs⟩ := e
    rw [ZosditMap.cutLoop, Nodit.overlaps_ok h1 hq]
    simp only [bind, Except.bind, pure, Except.pure]
    rw [if_pos (by rw [decide_eq_false hno]; rfl)]
    simp only [← hba]
  · have hlena : (flatten a).length ≤ m.len := by
      have := hg.len
      rw [iter, hba, flatten_append, List.length_append] at this
      omega
    refine sat_weaken (zCutLoop_sat hq za ha (Nat.lt_succ_self _) hlena) ?_ ?_ (fun _ _ h => h.elim)
    · rintro r t ⟨h1, h2, h3⟩
      refine ⟨?_, hv⟩
      unfold ZosditMap.cut
      rw [invalidIntervalPanic_ok hq]
      simp only [bind, Except.bind, pure, Except.pure]
      simp only at hc
      rw [hc]
      obtain ⟨len', c1, c2⟩ := ZosditMap.cutLoop_ok za hq ha hlena
      simp only [c1, h1, h2]
      have : len' = t.1 := by omega
      rw [this]
    · rintro t ⟨l₁, mid, part, l₂, ph, rfl, h2, h3, h4, h5, h6, h7⟩
      have hb' : b.flatMap (cutOut q) = b := by
        conv_rhs => rw [← List.flatMap_singleton' b]
        refine List.flatMap_congr ?_
        intro x hx; simp [cutOut, hb x hx]
      rw [← List.append_assoc, ← List.append_assoc] at hba
      have hinv := hg.inv
      rw [hba] at hinv
      obtain ⟨i1, i2, i3⟩ := ZInv.append.1 hinv
      obtain ⟨i4, i5, i6⟩ := ZInv.append.1 i1
      have hin : t.2.entries = (b ++ l₁).flatMap (cutOut q) ++ part ++ l₂ := by
        rw [h5, List.flatMap_append, hb']
      have hit : m.iter = flatten (b ++ l₁) ++ flatten mid ++ flatten l₂ := by
        rw [iter, hba, flatten_append, flatten_append]
      have hfull := cutOut_list_inv (q := q) hq i5
      obtain ⟨rest, hrest⟩ := h4
      rw [← hrest] at hfull
      have hpart := (ZInv.append.1 hfull).1
      have hsub : ∀ x ∈ part, x ∈ mid.flatMap (cutOut q) := fun x hx => by rw [← hrest]; simp [hx]
      have hinv' : ZInv t.2.entries := by
        rw [hin, ZInv.append, ZInv.append]
        refine ⟨⟨cutOut_list_inv hq i4, hpart, ?_⟩, i2, ?_⟩
        · intro x hx y hy
          obtain ⟨d, hd, d1, d2⟩ := mem_cutOut_list hq i4 hx
          obtain ⟨f, hf, f1, f2⟩ := mem_cutOut_list hq i5 (hsub y hy)
          have := i6 d hd f hf
          order
        · intro x hx y hy
          rcases List.mem_append.1 hx with hx | hx
          · obtain ⟨d, hd, d1, d2⟩ := mem_cutOut_list hq i4 hx
            have := i3 d (List.mem_append_left _ hd) y hy
            order
          · obtain ⟨d, hd, d1, d2⟩ := mem_cutOut_list hq i5 (hsub x hx)
            have := i3 d (List.mem_append_right _ hd) y hy
            order
      have hiter' : flatten t.2.entries = flatten ((b ++ l₁).flatMap (cutOut q)) ++ flatten part ++ flatten l₂ := by
        rw [hin, flatten_append, flatten_append]
      have hlen2 : t.1 + m.iter.length = m.len + (flatten t.2.entries).length + ph := by
        rw [hit, hiter']
        rw [List.flatMap_append, hb']
        simp only [flatten_append, List.length_append] at *
        omega
      refine ⟨⟨flatten t.2.entries, s.removed + ph, true⟩, ⟨⟨hinv', ?_⟩, rfl, ?_, by simp⟩, Or.inr ⟨hv, ?_, ?_⟩⟩
      · have := hg.len
        simp only [iter] at *
        omega
      · rw [← he] at hl
        simp only
        omega
      · rw [← he]
        exact not_cutMisses hg.inv hq hmiss
      · refine ⟨flatten (b ++ l₁), flatten mid, flatten l₂, (flatten (b ++ l₁)).flatMap (cutOut q), (flatten (b ++ l₁)).flatMap (cutIn q),
          (flatten mid).flatMap (cutOut q), (flatten mid).flatMap (cutIn q), flatten part, ph, ?_, ?_, ?_,
          cutAll_ok hq i4.flat.1, cutAll_ok hq i5.flat.1, ?_, ?_, ?_⟩
        · rw [← he, hit]
        · have hov : ∀ e ∈ mid, Overlap e.1 q := by
            intro e hm
            have := h2 e (List.mem_append_right _ hm)
            simp only [ovl, decide_eq_true_eq] at this
            exact (overlap_iff (i5.valid e hm) hq).2 this
          exact (i5.forall_iff (fun x => Overlap x q)).1 hov
        · match mid, h3 with
          | [], _ => simp [flatten]
          | [e], _ => 
            intro x hx y hy
            simp only [flatten, List.flatMap_cons, List.flatMap_nil, List.append_nil, List.mem_map] at hx hy
            obtain ⟨v, -, rfl⟩ := hx
            obtain ⟨w, -, rfl⟩ := hy
            rfl
        · rw [← flatten_cutOut i5, ← hrest, flatten_append]
          exact List.prefix_append _ _
        · refine h7.imp_right ?_
          rintro ⟨h8, h9⟩
          refine ⟨h8, ?_⟩
          rw [← flatten_cutOut i5]
          refine flatten_ne ?_ ⟨rest, hrest⟩ h9
          rw [← hrest]; exact hfull.store
        · rw [hiter', flatten_cutOut i4]

theorem zStep_sat {m : ZosditMap K V} {s : ZState K V} (h : Represents m s) (op : ZOp I K V) :
    Sat (zStep op) m (fun o m' => m.step op = .ok (m', o)) (fun m' => ∃ s', Represents m' s' ∧ ZCrashLeaves s op s')
      (fun p m' => m.step op = .error p ∧ m' = m) := by
  have plain : ∀ (C : ZosditMap K V → Prop), C m →
      Sat (do user; let m ← get; let (m', o) ← res (m.step op); set m'; pure o : Act (ZosditMap K V) (ZOut K V)) m
        (fun o m' => m.step op = .ok (m', o)) C (fun p m' => m.step op = .error p ∧ m' = m) := by
    intro C hC
    refine sat_user hC ?_
    apply sat_get
    cases hs : m.step op with
    | ok r =>
      refine sat_res (a := r) rfl ?_
      obtain ⟨m', o⟩ := r
      apply sat_set
      exact sat_pure rfl
    | error p => exact fun n => ⟨rfl, rfl⟩
  cases op with
  | insertStrictBack k v pick => exact plain _ ⟨s, h, rfl⟩
  | removeLastValueAtPoint p => exact plain _ ⟨s, h, rfl⟩
  | cut q =>
    unfold zStep
    refine sat_bind (zCut_sat h ?_) ?_
    · intro hn
      refine ⟨?_, rfl⟩
      rw [valid_iff] at hn
      rw [ZosditMap.step, ZosditMap.cut, invalidIntervalPanic_err hn]; rfl
    · rintro r m' ⟨h1, h2⟩
      refine sat_pure ?_
      rw [ZosditMap.step, h1]; rfl

theorem zStep_refines {m : ZosditMap K V} {s : ZState K V} (h : Represents m s) (op : ZOp I K V) (n : Option Nat) :
    ∃ s', Represents (zStep op m n).2.1 s' ∧ ZCrashStep s op s' (zStep op m n).1 := by
  have key := zStep_sat h op n
  revert key
  rcases zStep op m n with ⟨(e | o), m', n'⟩
  · cases e with
    | user => exact fun key => key.1
    | crate p =>
      rintro ⟨h1, rfl⟩
      rcases step_refines h op with ⟨h2, h3⟩ | ⟨-, m'', o, s', h3, -⟩
      · rw [h3] at h1; cases h1
        exact ⟨s, h, Or.inl ⟨h2, rfl, rfl⟩⟩
      · rw [h3] at h1; cases h1
  · rintro ⟨h1, -⟩
    rcases step_refines h op with ⟨h2, h3⟩ | ⟨h2, m'', o', s', h3, h4, h5⟩
    · rw [h3] at h1; cases h1
    · rw [h3] at h1; cases h1
      exact ⟨s', h4, Or.inr ⟨h2, o, rfl, h5⟩⟩

theorem zRun_refines {m : ZosditMap K V} {s : ZState K V} (h : Represents m s) (ops : List (ZOp I K V × Option Nat)) :
    ∃ s', Represents (zRun m ops).1 s' ∧ ZCrashRun s (ops.map Prod.fst) s' (zRun m ops).2 := by
  induction ops generalizing m s with
  | nil => exact ⟨s, h, .nil s⟩
  | cons x ops ih =>
    obtain ⟨op, n⟩ := x
    obtain ⟨s₁, h1, h2⟩ := zStep_refines h op n
    obtain ⟨s₂, h3, h4⟩ := ih h1
    exact ⟨s₂, h3, .cons h2 h4⟩

end Crash

variable {I K Q V : Type} [PointType I] [IntervalType I K] [IntervalType I Q]
  [LawfulPoint I] [LawfulInterval I K]
open Crash

/-- the map after a history of calls with panics of user code, all caught -/
def afterCrashes (ops : List (ZOp I K V × Option Nat)) : ZosditMap K V := (zRun new ops).1

/-- **C80**: the imperative programs interrupted by panics are, when undisturbed, the calls of C62. -/
theorem C80_undisturbed (ops : List (ZOp I K V × Option Nat)) (op : ZOp I K V) :
    (∀ m' o, (afterCrashes ops).step op = .ok (m', o) → (zStep op (afterCrashes ops) none).1 = .ok o ∧
      (zStep op (afterCrashes ops) none).2.1 = m') ∧
    (∀ p, (afterCrashes ops).step op = .error p → (zStep op (afterCrashes ops) none).1 = .error (.crate p) ∧
      (zStep op (afterCrashes ops) none).2.1 = afterCrashes ops) := by
  obtain ⟨s, h, -⟩ := zRun_refines (represents_new (I := I) (K := K) (V := V)) ops
  have key := zStep_sat h op none
  revert key
  unfold afterCrashes
  rcases zStep op (zRun new ops).1 none with ⟨(e | o), m', n'⟩
  · cases e with
    | user => exact fun key => absurd rfl key.2
    | crate p =>
      rintro ⟨h1, rfl⟩
      rw [h1]
      exact ⟨fun _ _ e => (nomatch e), fun p e => by injection e with e; subst e; exact ⟨rfl, rfl⟩⟩
  · rintro ⟨h1, -⟩
    rw [h1]
    exact ⟨fun _ _ e => by injection e with e; injection e with e1 e2; subst e1; subst e2; exact ⟨rfl, rfl⟩, fun p e => (nomatch e)⟩

/-- **C80**: every history of calls with panics of user code anywhere is a run of the reference machine in which the
interrupted calls leave what `ZCrashLeaves` says; `iter()` is the sequence of the machine, and `len()` its length plus the
entries counted though gone. -/
theorem C80_refines (ops : List (ZOp I K V × Option Nat)) :
    ∃ s, ZCrashRun ⟨[], 0, false⟩ (ops.map Prod.fst) s (zRun new ops).2 ∧ (afterCrashes ops).iter = s.entries ∧
      (afterCrashes ops).length = s.entries.length + s.removed := by
  obtain ⟨s, h1, h2⟩ := zRun_refines (represents_new (I := I) (K := K) (V := V)) ops
  exact ⟨s, h2, h1.entries, h1.len⟩

/-- **C80**: whatever panics, the entries stay valid, in order and at most zero-overlapping, and `len()` never is too
small. -/
theorem C80_well_formed (ops : List (ZOp I K V × Option Nat)) :
    ZWF (afterCrashes ops).iter ∧ (afterCrashes ops).iter.length ≤ (afterCrashes ops).length := by
  obtain ⟨s, h1, -⟩ := zRun_refines (represents_new (I := I) (K := K) (V := V)) ops
  exact ⟨zwf_iff.2 h1.good.inv.flat, h1.good.len⟩

theorem Spec.CutAll.untouched {q : Q} {l left r : List (K × V)} (h : CutAll q l left r) {e : K × V} (he : e ∈ l)
    (ho : ¬ Overlap e.1 q) : e ∈ left := by
  induction h with
  | nil => simp at he
  | cons h1 _ ih =>
    rcases List.mem_cons.1 he with rfl | he
    · rw [h1.2.1 ho]; simp
    · exact List.mem_append_right _ (ih he)

theorem Spec.Part.sub {P : I → Prop} {v : V} {l : List (K × V)} (h : Part P v l) {e : K × V} (he : e ∈ l) {p : I}
    (hp : Mem p e.1) : P p ∧ e.2 = v := by
  rcases h with ⟨-, rfl⟩ | ⟨i, h1, rfl⟩
  · simp at he
  · rw [List.mem_singleton] at he
    subst he
    refine ⟨(h1.2 p).1 ?_, rfl⟩
    obtain ⟨p1, p2⟩ := hp
    rw [LawfulInterval.start_of] at p1
    rw [LawfulInterval.stop_of] at p2
    exact ⟨p1, p2⟩

theorem Spec.Part.covers {P : I → Prop} {v : V} {l : List (K × V)} (h : Part P v l) {p : I} (hp : P p) :
    ∃ e ∈ l, Mem p e.1 ∧ e.2 = v := by
  rcases h with ⟨h, -⟩ | ⟨i, h1, rfl⟩
  · exact absurd hp (h p)
  · refine ⟨_, List.mem_singleton.2 rfl, ?_, rfl⟩
    obtain ⟨p1, p2⟩ := (h1.2 p).2 hp
    exact ⟨by rw [LawfulInterval.start_of]; exact p1, by rw [LawfulInterval.stop_of]; exact p2⟩

theorem Spec.CutAll.covers {q : Q} {l left r : List (K × V)} (h : CutAll q l left r) {e : K × V} (he : e ∈ l) {p : I}
    (hp : Mem p e.1) (hq : ¬ Mem p q) : ∃ d ∈ left, Mem p d.1 ∧ d.2 = e.2 := by
  induction h with
  | nil => simp at he
  | @cons d l left returned left' returned' h1 _ ih =>
    rcases List.mem_cons.1 he with rfl | he
    · by_cases ho : Overlap e.1 q
      · obtain ⟨b, a, rfl, hb, ha⟩ := h1.2.2 ho
        simp only [Mem, not_and_or, not_le] at hq
        obtain ⟨x, -, x1⟩ := ho
        rcases hq with hq | hq
        · obtain ⟨d, h2, h3⟩ := hb.covers (p := p) ⟨hp, fun y hy => by have := hy.1; order⟩
          exact ⟨d, by simp [h2], h3⟩
        · obtain ⟨d, h2, h3⟩ := ha.covers (p := p) ⟨hp, fun y hy => by have := hy.2; order⟩
          exact ⟨d, by simp [h2], h3⟩
      · rw [h1.2.1 ho]
        exact ⟨e, by simp, hp, rfl⟩
    · obtain ⟨d', h2, h3⟩ := ih he
      exact ⟨d', by simp [h2], h3⟩

theorem Spec.CutAll.sub {q : Q} {l left r : List (K × V)} (h : CutAll q l left r) {e : K × V} (he : e ∈ left) {p : I}
    (hp : Mem p e.1) : ∃ d ∈ l, Mem p d.1 ∧ d.2 = e.2 := by
  induction h with
  | nil => simp at he
  | @cons d l left returned left' returned' h1 _ ih =>
    rcases List.mem_append.1 he with he | he
    · refine ⟨d, by simp, ?_⟩
      by_cases ho : Overlap d.1 q
      · obtain ⟨b, a, rfl, hb, ha⟩ := h1.2.2 ho
        rcases List.mem_append.1 he with he | he
        · have := Part.sub hb he hp; exact ⟨this.1.1, this.2.symm⟩
        · have := Part.sub ha he hp; exact ⟨this.1.1, this.2.symm⟩
      · rw [h1.2.1 ho, List.mem_singleton] at he
        subst he
        exact ⟨hp, rfl⟩
    · obtain ⟨d', h2, h3⟩ := ih he
      exact ⟨d', by simp [h2], h3⟩

/-- **C80**: a panic of user code inside `insert_strict_back` or `remove_last_value_at_point` leaves the map exactly as it
was. -/
theorem C80_only_cut (m : ZosditMap K V) (op : ZOp I K V) (hop : op.isCut = false) (n : Option Nat)
    (hc : (zStep op m n).1 = .error .user) : (zStep op m n).2.1 = m := by
  have plain : ∀ x : Res (ZosditMap K V × ZOut K V),
      ((do Act.user; let m ← Act.get; let (m', o) ← Act.res (m.step op); Act.set m'; pure o : Act (ZosditMap K V) (ZOut K V)) m n).1 = .error .user →
      ((do Act.user; let m ← Act.get; let (m', o) ← Act.res (m.step op); Act.set m'; pure o : Act (ZosditMap K V) (ZOut K V)) m n).2.1 = m := by
    intro _ hc
    rcases n with - | (- | n)
    · revert hc
      simp only [bind, Act.user, Act.get, Act.res]
      cases m.step op <;> intro hc <;> cases hc
    · rfl
    · revert hc
      simp only [bind, Act.user, Act.get, Act.res]
      cases m.step op <;> intro hc <;> cases hc
  cases op with
  | insertStrictBack k v pick => exact plain (m.step (.insertStrictBack k v pick)) hc
  | removeLastValueAtPoint p => exact plain (m.step (.removeLastValueAtPoint p)) hc
  | cut q => cases hop

/-- **C80**: a panic of user code inside `cut(q)` leaves every entry that does not overlap `q`; no value is at a point where
it was not before, and no value outside `q` is lost except from the one store that was being cut. -/
theorem C80_cut_interrupted (ops : List (ZOp I K V × Option Nat)) (q : Interval I) (n : Option Nat)
    (hc : (zStep (.cut q) (afterCrashes ops) n).1 = .error .user) :
    let m := afterCrashes ops
    let m' := (zStep (.cut q) (afterCrashes ops) n).2.1
    (∀ e ∈ m.iter, ¬ Overlap e.1 q → e ∈ m'.iter) ∧
    (∀ e ∈ m'.iter, ∀ p, Mem p e.1 → ∃ d ∈ m.iter, Mem p d.1 ∧ d.2 = e.2) ∧
    (∃ k : Option K, ∀ e ∈ m.iter, some e.1 ≠ k → ∀ p, Mem p e.1 → ¬ Mem p q → ∃ d ∈ m'.iter, Mem p d.1 ∧ d.2 = e.2) ∧
    m.length - m.iter.length ≤ m'.length - m'.iter.length := by
  intro m m'
  obtain ⟨s, h, -⟩ := zRun_refines (represents_new (I := I) (K := K) (V := V)) ops
  obtain ⟨s', h', hs⟩ := zStep_refines h (.cut q) n
  change ZCrashStep s (.cut q) s' (zStep (.cut q) (afterCrashes ops) n).1 at hs
  rw [hc] at hs
  have e1 : m.iter = s.entries := h.entries
  have e2 : m'.iter = s'.entries := h'.entries
  have e3 : m.length = s.entries.length + s.removed := h.len
  have e4 : m'.length = s'.entries.length + s'.removed := h'.len
  rw [e1, e2, e3, e4]
  rcases hs with rfl | ⟨-, -, l1, mid, l2, l1', r1, full, r, part, counted, a1, a2, a3, a4, a5, a6, a7, rfl⟩
  · exact ⟨fun e he _ => he, fun e he p hp => ⟨e, he, hp, rfl⟩, ⟨none, fun e he _ p hp _ => ⟨e, he, hp, rfl⟩⟩, le_refl _⟩
  · rw [a1]
    refine ⟨?_, ?_, ⟨mid.head?.map Prod.fst, ?_⟩, by simp only [List.length_append]; omega⟩
    · intro e he ho
      rcases List.mem_append.1 he with he | he
      · rcases List.mem_append.1 he with he | he
        · exact List.mem_append_left _ (List.mem_append_left _ (a4.untouched he ho))
        · exact absurd (a2 e he) ho
      · exact List.mem_append_right _ he
    · intro e he p hp
      rcases List.mem_append.1 he with he | he
      · rcases List.mem_append.1 he with he | he
        · obtain ⟨d, d1, d2⟩ := a4.sub he hp
          exact ⟨d, by simp [d1], d2⟩
        · obtain ⟨d, d1, d2⟩ := a5.sub (a6.subset he) hp
          exact ⟨d, by simp [d1], d2⟩
      · exact ⟨e, List.mem_append_right _ he, hp, rfl⟩
    · intro e he hk p hp hpq
      rcases List.mem_append.1 he with he | he
      · rcases List.mem_append.1 he with he | he
        · obtain ⟨d, d1, d2⟩ := a4.covers he hp hpq
          exact ⟨d, by simp [d1], d2⟩
        · exfalso
          cases mid with
          | nil => simp at he
          | cons d mid => exact hk (by simp [a3 e he d (by simp)])
      · exact ⟨e, List.mem_append_right _ he, hp, rfl⟩

/-- four entries, then a `cut` that panics while it cuts the second of the two entries it meets -/
def Demo.zcrash : List (ZOp Demo.U8 (Interval Demo.U8) Nat × Option Nat) :=
  [(.insertStrictBack (Demo.iv 0 4) 1 0, none), (.insertStrictBack (Demo.iv 4 4) 2 0, none),
   (.insertStrictBack (Demo.iv 4 4) 3 0, none), (.insertStrictBack (Demo.iv 6 9) 4 0, none)]

example : (afterCrashes Demo.zcrash).iter.length = 4 ∧
    (match (zStep (.cut (Demo.iv 2 7)) (afterCrashes Demo.zcrash) (some 9)).1 with | .error .user => True | _ => False) ∧
    (zStep (.cut (Demo.iv 2 7)) (afterCrashes Demo.zcrash) (some 9)).2.1.iter = [(Demo.iv 0 1, 1), (Demo.iv 6 9, 4)] ∧
    (match (zStep (.insertStrictBack (Demo.iv 9 9) 7 0) (afterCrashes Demo.zcrash) (some 0)).1 with
      | .error .user => True | _ => False) := by
  refine ⟨by decide, trivial, by decide, trivial⟩

/-- **C80**, what can go wrong: user code panicking in the middle of `cut` leaves a map whose only entry is gone, with
`len()` counting it twice. -/
theorem C80_counted_twice :
    let ops : List (ZOp Demo.U8 (Interval Demo.U8) Nat × Option Nat) :=
      [(.insertStrictBack (Demo.iv 3 9) 1 0, none), (.cut (Demo.iv 0 5), some 4)]
    (afterCrashes ops).iter = [] ∧ (afterCrashes ops).length = 2 ∧ (afterCrashes ops).isEmpty = false := by
  decide

end Nodit
