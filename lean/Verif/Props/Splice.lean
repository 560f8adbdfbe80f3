import Verif.Props.RangeUpdate
import Verif.Props.Shift
/-!
# C131: making room and closing up

A client keeps the attributes of the cells of a text (or of a disc) in a `NoditMap`, and edits the text: `insert_space` makes room for
`n` new cells before cell `p`, `remove_space` deletes `n` cells from `p` on. Both cut the map, move the entries cut off, and put
them back with `insert_strict`.
-/
set_option linter.unusedSectionVars false
namespace Nodit.Splice
open Spec PointType NoditMap InclusiveInterval RangeUpdate

variable {lo hi : Int} [Fact (lo ≤ hi)] {V : Type}

/-- client code, models no lines of `/repo`: `let (k, v) = e; (ii(k.start() - n, k.end() - n), v)` for every entry (overflow checks on) -/
def movedBack (n : BInt lo hi) : List (Interval (BInt lo hi) × V) → Res (List (Interval (BInt lo hi) × V))
  | [] => pure []
  | e :: l => do
    let s ← BInt.subChecked (start e.1) n
    let t ← BInt.subChecked (stop e.1) n
    let k ← ii s t
    let l ← movedBack n l
    pure ((k, e.2) :: l)

/-- client code, models no lines of `/repo`: `cut(iu(p))`, `translate(n)`, `insert_strict` -/
def insertSpace (m : NoditMap (Interval (BInt lo hi)) V) (p n : BInt lo hi) : Res (NoditMap (Interval (BInt lo hi)) V) := do
  let q ← iu p
  let (m, out) ← m.cut q
  let l ← Shift.translated n out
  insertAll m l

/-- client code, models no lines of `/repo`: `cut(ie(p, p + n))`, `cut(iu(p + n))`, move back, `insert_strict` -/
def removeSpace (m : NoditMap (Interval (BInt lo hi)) V) (p n : BInt lo hi) : Res (NoditMap (Interval (BInt lo hi)) V) := do
  let b ← BInt.addChecked p n
  let q ← ie p b
  let (m, _) ← m.cut q
  let r ← iu b
  let (m, out) ← m.cut r
  let l ← movedBack n out
  insertAll m l

/-- `x` is `e` moved by `z` -/
def MovedBy (z : Int) (e x : Interval (BInt lo hi) × V) : Prop :=
  (start x.1 : BInt lo hi).val = (start e.1 : BInt lo hi).val + z ∧ (stop x.1 : BInt lo hi).val = (stop e.1 : BInt lo hi).val + z ∧ x.2 = e.2

theorem MovedBy.mem {z : Int} {e x : Interval (BInt lo hi) × V} (h : MovedBy z e x) {p p' : BInt lo hi} (hp : p'.val = p.val + z) :
    Mem p' x.1 ↔ Mem p e.1 := by
  simp only [Mem, BInt.le_def, h.1, h.2.1, hp]
  omega

theorem sub_ok {a n : BInt lo hi} (h : lo ≤ a.val - n.val) (h' : a.val - n.val ≤ hi) : a.subChecked n = .ok ⟨a.val - n.val, h, h'⟩ := by
  unfold BInt.subChecked BInt.checkedSub BInt.ofInt?
  rw [dif_pos ⟨h, h'⟩]

theorem movedBack_ok (n : BInt lo hi) {l : List (Interval (BInt lo hi) × V)} (h : WF (I := BInt lo hi) l) (hn : 0 ≤ n.val)
    (hf : ∀ e ∈ l, lo + n.val ≤ (start e.1 : BInt lo hi).val) :
    ∃ l', movedBack n l = .ok l' ∧ List.Forall₂ (MovedBy (-n.val)) l l' ∧ WF (I := BInt lo hi) l' := by
  induction l with
  | nil => exact ⟨[], rfl, .nil, h⟩
  | cons e l ih =>
    have hp := List.pairwise_cons.1 h.2
    obtain ⟨l', h1, h2, h3⟩ := ih ⟨fun x hx => h.1 x (by simp [hx]), hp.2⟩ fun x hx => hf x (by simp [hx])
    have hv := BInt.le_def.1 (valid_iff.1 (h.1 e (by simp)))
    have f1 := hf e (by simp)
    have a1 := (start e.1 : BInt lo hi).le
    have a2 := (stop e.1 : BInt lo hi).le
    have s1 := sub_ok (a := (start e.1 : BInt lo hi)) (n := n) (by omega) (by omega)
    have s2 := sub_ok (a := (stop e.1 : BInt lo hi)) (n := n) (by omega) (by omega)
    have hk := ii_ok (a := (⟨(start e.1 : BInt lo hi).val - n.val, by omega, by omega⟩ : BInt lo hi))
      (b := ⟨(stop e.1 : BInt lo hi).val - n.val, by omega, by omega⟩) (BInt.le_def.2 (by simp only; omega))
    refine ⟨(⟨⟨(start e.1 : BInt lo hi).val - n.val, by omega, by omega⟩, ⟨(stop e.1 : BInt lo hi).val - n.val, by omega, by omega⟩⟩, e.2) :: l',
      by simp only [movedBack, s1, s2, hk, h1, bind, Except.bind, pure, Except.pure], .cons ⟨?_, ?_, rfl⟩ h2, ?_, ?_⟩
    · show _ - _ = _ + -_; omega
    · show _ - _ = _ + -_; omega
    · intro x hx
      rcases List.mem_cons.1 hx with rfl | hx
      · exact valid_iff.2 (BInt.le_def.2 (by show _ - _ ≤ _ - _; omega))
      · exact h3.1 x hx
    · refine List.pairwise_cons.2 ⟨fun x hx p q hp' hq => ?_, h3.2⟩
      obtain ⟨y, hy, hyx⟩ := Shift.forall₂_right h2 hx
      have hb := hp.1 y hy
      have hvy := valid_iff.1 (h.1 y (by simp [hy]))
      have := hb (stop e.1) (start y.1) ⟨valid_iff.1 (h.1 e (by simp)), le_refl _⟩ ⟨le_refl _, hvy⟩
      rw [BInt.lt_def] at this ⊢
      have hp1 : p.val ≤ (stop e.1 : BInt lo hi).val - n.val := BInt.le_def.1 hp'.2
      have hq1 := BInt.le_def.1 hq.1
      rw [hyx.1] at hq1
      omega

/-- putting moved entries into a map where they do not overlap anything -/
theorem graft {m : NoditMap (Interval (BInt lo hi)) V} (h : WF m.iter) {out l' : List (Interval (BInt lo hi) × V)} {z : Int}
    (hl : WF (I := BInt lo hi) l') (hm : List.Forall₂ (MovedBy z) out l')
    (hd : ∀ e ∈ m.iter, ∀ d ∈ l', ¬ Overlap (I := BInt lo hi) e.1 d.1) :
    ∃ m', insertAll m l' = .ok m' ∧ WF m'.iter ∧
      (∀ p p' : BInt lo hi, p'.val = p.val + z → ∀ v, (∃ e ∈ out, Mem p e.1 ∧ e.2 = v) → m'.getAtPoint p' = .ok (some v)) ∧
      (∀ p' : BInt lo hi, (∀ p : BInt lo hi, p'.val = p.val + z → ∀ e ∈ out, ¬ Mem p e.1) → m'.getAtPoint p' = m.getAtPoint p') := by
  obtain ⟨m', i1, i2, i3⟩ := insertAll_spec h hl hd
  refine ⟨m', i1, i2, ?_, ?_⟩
  · rintro p p' hp v ⟨e, he, hpe, rfl⟩
    obtain ⟨x, hx, hex⟩ := Shift.forall₂_left hm he
    rw [getAtPoint_eq i2 ((i3 x).2 (Or.inr hx)) ((hex.mem hp).2 hpe), hex.2.2]
  · intro p' hp
    have hno : ∀ x ∈ l', ¬ Mem p' x.1 := by
      intro x hx hpx
      obtain ⟨e, he, hex⟩ := Shift.forall₂_right hm hx
      have a1 := BInt.le_def.1 hpx.1
      have a2 := BInt.le_def.1 hpx.2
      rw [hex.1] at a1; rw [hex.2.1] at a2
      have := (start e.1 : BInt lo hi).ge
      have := (stop e.1 : BInt lo hi).le
      let p : BInt lo hi := ⟨p'.val - z, by omega, by omega⟩
      have hpp : p'.val = p.val + z := by simp only [p]; omega
      exact hp p hpp e he ((hex.mem hpp).1 hpx)
    by_cases hc : ∃ e ∈ m.iter, Mem p' e.1
    · obtain ⟨e, he, hpe⟩ := hc
      rw [getAtPoint_eq i2 ((i3 e).2 (Or.inl he)) hpe, getAtPoint_eq h he hpe]
    · rw [getAtPoint_none h fun e he hpe => hc ⟨e, he, hpe⟩, getAtPoint_none i2]
      intro e he hpe
      rcases (i3 e).1 he with he | he
      · exact hc ⟨e, he, hpe⟩
      · exact hno e he hpe

theorem iu_ok (p : BInt lo hi) : (iu p : Res (Interval (BInt lo hi))) = .ok ⟨p, MAX⟩ := ii_ok (LawfulPoint.le_max p)

theorem mem_iu {p x : BInt lo hi} : Mem x (⟨p, MAX⟩ : Interval (BInt lo hi)) ↔ p.val ≤ x.val :=
  ⟨fun h => BInt.le_def.1 h.1, fun h => ⟨BInt.le_def.2 h, LawfulPoint.le_max x⟩⟩

/-- **C131**: making room for `n` cells before `p` works exactly if the last `n` cells from `p` on hold nothing (otherwise `translate` panics
with an overflow). Then the cells before `p` hold what they held, the `n` new cells hold nothing, and every cell after them holds
what the cell `n` before it held. No `insert_strict` is refused. -/
theorem C131_insert_space {m : NoditMap (Interval (BInt lo hi)) V} (h : WF m.iter) (p n : BInt lo hi) (hn : 0 ≤ n.val) :
    ((∀ x : BInt lo hi, p ≤ x → hi < x.val + n.val → m.getAtPoint x = .ok none) →
      ∃ m', insertSpace m p n = .ok m' ∧ WF m'.iter ∧
        (∀ x : BInt lo hi, x < p → m'.getAtPoint x = m.getAtPoint x) ∧
        (∀ x : BInt lo hi, p ≤ x → x.val < p.val + n.val → m'.getAtPoint x = .ok none) ∧
        (∀ x x' : BInt lo hi, p ≤ x → x'.val = x.val + n.val → m'.getAtPoint x' = m.getAtPoint x)) ∧
    ((∃ x : BInt lo hi, p ≤ x ∧ hi < x.val + n.val ∧ m.getAtPoint x ≠ .ok none) → insertSpace m p n = .error .overflow) := by
  have hq : Valid (I := BInt lo hi) (⟨p, MAX⟩ : Interval (BInt lo hi)) := valid_iff.2 (LawfulPoint.le_max p)
  obtain ⟨m₁, out, c1, c2, c3, -, -⟩ := C08_cut_exact h _ hq
  have hcut := C08_cut_pointwise h _ hq c1
  have hin : ∀ e ∈ out, p.val ≤ (start e.1 : BInt lo hi).val := fun e he =>
    mem_iu.1 (((hcut (start e.1)).2.2 e.2).1 ⟨e, he, ⟨le_refl _, valid_iff.1 (c3.1 e he)⟩, rfl⟩).1
  refine ⟨fun hroom => ?_, ?_⟩
  · have hfit : ∀ e ∈ out, Shift.Fits n e.1 := by
      intro e he
      refine ⟨by have := (start e.1 : BInt lo hi).ge; omega, ?_⟩
      by_contra hc
      obtain ⟨h1, f, hf, hpf, -⟩ := ((hcut (stop e.1)).2.2 e.2).1 ⟨e, he, ⟨valid_iff.1 (c3.1 e he), le_refl _⟩, rfl⟩
      have := hroom (stop e.1) h1.1 (by omega)
      rw [getAtPoint_eq h hf hpf] at this
      cases this
    obtain ⟨l', t1, t2, t3⟩ := Shift.translated_ok n c3 hfit
    obtain ⟨m', g1, g2, g3, g4⟩ := graft (z := n.val) c2 t3 t2 (by
      rintro e he d hd ⟨x, hx, hxd⟩
      obtain ⟨y, hy, hm⟩ := Shift.forall₂_right t2 hd
      have := BInt.le_def.1 hxd.1
      rw [hm.1] at this
      have hxq : Mem x (⟨p, MAX⟩ : Interval (BInt lo hi)) := mem_iu.2 (by have := hin y hy; omega)
      have := (hcut x).1 hxq
      rw [getAtPoint_eq c2 he hx] at this
      cases this)
    refine ⟨m', by simp only [insertSpace, iu_ok, c1, t1, bind, Except.bind]; exact g1, g2, fun x hx => ?_, fun x hx hx' => ?_, fun x x' hx hx' => ?_⟩
    · have hx := BInt.lt_def.1 hx
      rw [g4 x, (hcut x).2.1 fun hm => by have := mem_iu.1 hm; omega]
      intro y hy e he hye
      have := hin e he
      have := BInt.le_def.1 hye.1
      omega
    · have hx := BInt.le_def.1 hx
      rw [g4 x, (hcut x).1 (mem_iu.2 hx)]
      intro y hy e he hye
      have := hin e he
      have := BInt.le_def.1 hye.1
      omega
    · have hx := BInt.le_def.1 hx
      by_cases hc : ∃ e ∈ m.iter, Mem x e.1
      · obtain ⟨e, he, hxe⟩ := hc
        rw [g3 x x' hx' e.2 (((hcut x).2.2 e.2).2 ⟨mem_iu.2 hx, e, he, hxe, rfl⟩), getAtPoint_eq h he hxe]
      · rw [g4 x', (hcut x').1 (mem_iu.2 (by omega)), getAtPoint_none h fun e he hpe => hc ⟨e, he, hpe⟩]
        intro y hy e he hye
        have : y = x := BInt.ext (by omega)
        subst this
        obtain ⟨-, f, hf, hyf, -⟩ := ((hcut y).2.2 e.2).1 ⟨e, he, hye, rfl⟩
        exact hc ⟨f, hf, hyf⟩
  · rintro ⟨x, hx, hx', hne⟩
    have hc : ∃ e ∈ m.iter, Mem x e.1 := by
      by_contra hc
      exact hne (getAtPoint_none h fun e he hpe => hc ⟨e, he, hpe⟩)
    obtain ⟨e, he, hxe⟩ := hc
    obtain ⟨f, hf, hxf, -⟩ := ((hcut x).2.2 e.2).2 ⟨mem_iu.2 (BInt.le_def.1 hx), e, he, hxe, rfl⟩
    have := Shift.translated_overflow n c3.1 ⟨f, hf, fun hfit => by
      have := hfit.2
      have := BInt.le_def.1 hxf.2
      omega⟩
    simp only [insertSpace, iu_ok, c1, this, bind, Except.bind]

/-- **C131**: deleting `n ≥ 1` cells from `p` on never panics if there is a cell `p + n` (otherwise `p + n` overflows). The cells before `p`
hold what they held, every cell from `p` on holds what the cell `n` after it held, and the last `n` cells hold nothing. -/
theorem C131_remove_space {m : NoditMap (Interval (BInt lo hi)) V} (h : WF m.iter) (p n : BInt lo hi) (hn : 0 < n.val) :
    (p.val + n.val ≤ hi → ∃ m', removeSpace m p n = .ok m' ∧ WF m'.iter ∧
      (∀ x : BInt lo hi, x < p → m'.getAtPoint x = m.getAtPoint x) ∧
      (∀ x x' : BInt lo hi, p ≤ x → x'.val = x.val + n.val → m'.getAtPoint x = m.getAtPoint x') ∧
      (∀ x : BInt lo hi, p ≤ x → hi < x.val + n.val → m'.getAtPoint x = .ok none)) ∧
    (hi < p.val + n.val → removeSpace m p n = .error .overflow) := by
  refine ⟨fun hb => ?_, fun hb => ?_⟩
  · have hlo := p.ge
    let b : BInt lo hi := ⟨p.val + n.val, by omega, hb⟩
    have hadd : p.addChecked n = .ok b := addChecked_ok_iff.2 rfl
    let b' : BInt lo hi := ⟨p.val + n.val - 1, by omega, by omega⟩
    have hpb' : p ≤ b' := BInt.le_def.2 (by simp only [b']; omega)
    have hie : (ie p b : Res (Interval (BInt lo hi))) = .ok ⟨p, b'⟩ := by
      have : down b = some b' := down_eq_some.2 ⟨BInt.lt_def.2 (by simp only [b, b']; omega), fun z hz =>
        BInt.le_def.2 (by have := BInt.lt_def.1 hz; simp only [b, b'] at this ⊢; omega)⟩
      simp only [ie, this, unwrap, bind, Except.bind]
      exact ii_ok hpb'
    have hq : Valid (I := BInt lo hi) (⟨p, b'⟩ : Interval (BInt lo hi)) := valid_iff.2 hpb'
    have hr : Valid (I := BInt lo hi) (⟨b, MAX⟩ : Interval (BInt lo hi)) := valid_iff.2 (LawfulPoint.le_max b)
    have hmq : ∀ x : BInt lo hi, Mem x (⟨p, b'⟩ : Interval (BInt lo hi)) ↔ p.val ≤ x.val ∧ x.val < p.val + n.val := fun x =>
      ⟨fun hx => ⟨BInt.le_def.1 hx.1, by have : x.val ≤ p.val + n.val - 1 := BInt.le_def.1 hx.2; omega⟩,
       fun hx => ⟨BInt.le_def.2 hx.1, BInt.le_def.2 (by show x.val ≤ p.val + n.val - 1; omega)⟩⟩
    obtain ⟨m₁, out₁, c1, c2, -, -, -⟩ := C08_cut_exact h _ hq
    have hcut₁ := C08_cut_pointwise h _ hq c1
    obtain ⟨m₂, out, d1, d2, d3, -, -⟩ := C08_cut_exact c2 _ hr
    have hcut₂ := C08_cut_pointwise c2 _ hr d1
    have hin : ∀ e ∈ out, p.val + n.val ≤ (start e.1 : BInt lo hi).val := fun e he =>
      mem_iu.1 (((hcut₂ (start e.1)).2.2 e.2).1 ⟨e, he, ⟨le_refl _, valid_iff.1 (d3.1 e he)⟩, rfl⟩).1
    obtain ⟨l', t1, t2, t3⟩ := movedBack_ok n d3 (by omega) fun e he => by have := hin e he; omega
    have hgone : ∀ x : BInt lo hi, p.val ≤ x.val → m₂.getAtPoint x = .ok none := by
      intro x hx
      by_cases hxb : p.val + n.val ≤ x.val
      · exact (hcut₂ x).1 (mem_iu.2 hxb)
      · rw [(hcut₂ x).2.1 fun hm => hxb (mem_iu.1 hm)]
        exact (hcut₁ x).1 ((hmq x).2 ⟨hx, by omega⟩)
    obtain ⟨m', g1, g2, g3, g4⟩ := graft (z := -n.val) d2 t3 t2 (by
      rintro e he d hd ⟨x, hx, hxd⟩
      obtain ⟨y, hy, hm⟩ := Shift.forall₂_right t2 hd
      have := BInt.le_def.1 hxd.1
      rw [hm.1] at this
      have := hgone x (by have := hin y hy; omega)
      rw [getAtPoint_eq d2 he hx] at this
      cases this)
    refine ⟨m', by simp only [removeSpace, hadd, hie, c1, iu_ok, d1, t1, bind, Except.bind]; exact g1, g2, fun x hx => ?_, fun x x' hx hx' => ?_, fun x hx hx' => ?_⟩
    · have hx := BInt.lt_def.1 hx
      rw [g4 x, (hcut₂ x).2.1 fun hm => by have := mem_iu.1 hm; simp only [b] at this; omega, (hcut₁ x).2.1 fun hm => by have := ((hmq x).1 hm).1; omega]
      intro y hy e he hye
      have := hin e he
      have := BInt.le_def.1 hye.1
      omega
    · have hx := BInt.le_def.1 hx
      have hsame : m₁.getAtPoint x' = m.getAtPoint x' := (hcut₁ x').2.1 fun hm => by have := ((hmq x').1 hm).2; omega
      rw [← hsame]
      by_cases hc : ∃ e ∈ m₁.iter, Mem x' e.1
      · obtain ⟨e, he, hxe⟩ := hc
        rw [g3 x' x (by omega) e.2 (((hcut₂ x').2.2 e.2).2 ⟨mem_iu.2 (by show p.val + n.val ≤ _; omega), e, he, hxe, rfl⟩), getAtPoint_eq c2 he hxe]
      · rw [g4 x, hgone x hx, getAtPoint_none c2 fun e he hpe => hc ⟨e, he, hpe⟩]
        intro y hy e he hye
        have : y = x' := BInt.ext (by omega)
        subst this
        obtain ⟨-, f, hf, hyf, -⟩ := ((hcut₂ y).2.2 e.2).1 ⟨e, he, hye, rfl⟩
        exact hc ⟨f, hf, hyf⟩
    · rw [g4 x, hgone x (BInt.le_def.1 hx)]
      intro y hy
      have := y.le
      omega
  · have : p.addChecked n = .error .overflow := by
      unfold BInt.addChecked BInt.checkedAdd BInt.ofInt?
      rw [dif_neg (by omega)]
    simp only [removeSpace, this, bind, Except.bind]

/-- **C131**: deleting the room just made gives every cell its value back. -/
theorem C131_round_trip {m m' : NoditMap (Interval (BInt lo hi)) V} (h : WF m.iter) {p n : BInt lo hi} (hn : 0 < n.val) (hb : p.val + n.val ≤ hi)
    (hi' : insertSpace m p n = .ok m') :
    ∃ m'', removeSpace m' p n = .ok m'' ∧ WF m''.iter ∧ ∀ x, m''.getAtPoint x = m.getAtPoint x := by
  have hroom : ∀ x : BInt lo hi, p ≤ x → hi < x.val + n.val → m.getAtPoint x = .ok none := by
    by_contra hc
    push Not at hc
    rw [(C131_insert_space h p n (by omega)).2 hc] at hi'
    cases hi'
  obtain ⟨m1, e1, e2, e3, -, e5⟩ := (C131_insert_space h p n (by omega)).1 hroom
  rw [hi'] at e1; cases e1
  obtain ⟨m'', f1, f2, f3, f4, f5⟩ := (C131_remove_space e2 p n hn).1 hb
  refine ⟨m'', f1, f2, fun x => ?_⟩
  rcases lt_or_ge x p with hx | hx
  · rw [f3 x hx, e3 x hx]
  · by_cases hxn : x.val + n.val ≤ hi
    · have := x.ge
      let x' : BInt lo hi := ⟨x.val + n.val, by omega, hxn⟩
      rw [f4 x x' hx rfl, e5 x x' hx rfl]
    · rw [f5 x hx (by omega), hroom x hx (by omega)]

end Nodit.Splice
