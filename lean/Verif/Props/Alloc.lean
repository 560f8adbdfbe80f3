import Verif.IntervalOps
import Verif.Props.Intervals
import Verif.Props.MapProps
import Verif.Props.Demo
import Verif.Props.Rollback
import Verif.Props.Pointwise
/-!
# C119: a first-fit allocator on top of the API

A client that keeps blocks of memory (intervals of unsigned integers) in a `NoditMap`: to allocate it asks `gaps_trimmed` for the
free space, takes the first gap that is wide enough, and inserts its lower end with `insert_strict`; to free it cuts the block
out.
-/
set_option linter.unusedSectionVars false
namespace Nodit.Alloc
open Spec PointType InclusiveInterval

variable {hi : Int} [Fact ((0 : Int) ≤ hi)] {V : Type}

/-- The first gap whose `width()` is at least `n`. A client, models no lines of `/repo`; it calls `width`
(`interval.rs`). -/
def firstFit (n : BInt 0 hi) : List (Interval (BInt 0 hi)) → Res (Option (Interval (BInt 0 hi)))
  | [] => pure none
  | g :: rest => do
    let w ← width BInt.subChecked g
    if n ≤ w then pure (some g) else firstFit n rest

/-- Allocate a block of width `n` (`n + 1` points) inside `q`. Returns the block, or nothing if there is no room; a refused insert
would be a panic. A client, models no lines of `/repo`; it calls `gaps_trimmed` and `insert_strict` (`nodit/map.rs`). -/
def alloc (m : NoditMap (Interval (BInt 0 hi)) V) (q : Interval (BInt 0 hi)) (n : BInt 0 hi) (v : V) :
    Res (NoditMap (Interval (BInt 0 hi)) V × Option (Interval (BInt 0 hi))) := do
  let gaps ← m.gapsTrimmed q
  match ← firstFit n gaps with
  | none => pure (m, none)
  | some g =>
    let e ← BInt.addChecked g.start n
    let b : Interval (BInt 0 hi) := ⟨g.start, e⟩
    match ← m.insertStrict b v with
    | (m, .ok ()) => pure (m, some b)
    | (_, .error _) => .error .explicit

/-- `b` is a block of width `n` inside `q`, none of whose points is in an entry. A specification, models no lines of `/repo`. -/
def Fits (m : NoditMap (Interval (BInt 0 hi)) V) (q : Interval (BInt 0 hi)) (n : BInt 0 hi) (b : Interval (BInt 0 hi)) : Prop :=
  b.stop.val = b.start.val + n.val ∧ ∀ p : BInt 0 hi, Mem p b → Mem p q ∧ ¬ ∃ e ∈ m.iter, Mem p e.1

theorem firstFit_spec (n : BInt 0 hi) (l : List (Interval (BInt 0 hi))) (hl : ∀ g ∈ l, g.start ≤ g.stop) :
    ∃ r, firstFit n l = .ok r ∧ (r = none → ∀ g ∈ l, g.stop.val - g.start.val < n.val) ∧
      ∀ g, r = some g → ∃ l₁ l₂, l = l₁ ++ g :: l₂ ∧ n.val ≤ g.stop.val - g.start.val ∧ ∀ x ∈ l₁, x.stop.val - x.start.val < n.val := by
  induction l with
  | nil => exact ⟨none, rfl, by simp, by simp⟩
  | cons g l ih =>
    obtain ⟨r, h1, h2, h3⟩ := ih fun x hx => hl x (by simp [hx])
    have hg : Valid g := valid_iff.2 (hl g (by simp))
    obtain ⟨w1, -, w3⟩ := C26_width_exact (Int.le_refl 0) g hg
    obtain ⟨w, hw⟩ := w3 rfl
    have hwv := w1 w hw
    by_cases hn : n ≤ w
    · refine ⟨some g, ?_, by simp, ?_⟩
      · simp only [firstFit, hw, bind, Except.bind, hn, if_true]; rfl
      · rintro _ ⟨⟩
        exact ⟨[], l, rfl, by rw [BInt.le_def, hwv] at hn; exact hn, by simp⟩
    · have hn' : g.stop.val - g.start.val < n.val := by
        rw [BInt.le_def, hwv] at hn; exact not_le.1 hn
      refine ⟨r, ?_, ?_, ?_⟩
      · simp only [firstFit, hw, bind, Except.bind, hn, if_false, h1]
      · intro hr x hx
        rcases List.mem_cons.1 hx with rfl | hx
        · exact hn'
        · exact h2 hr x hx
      · intro x hx
        obtain ⟨l₁, l₂, rfl, a, b⟩ := h3 x hx
        refine ⟨g :: l₁, l₂, rfl, a, fun y hy => ?_⟩
        rcases List.mem_cons.1 hy with rfl | hy
        · exact hn'
        · exact b y hy

theorem mem_val {p : BInt 0 hi} {b : Interval (BInt 0 hi)} : Mem p b ↔ b.start.val ≤ p.val ∧ p.val ≤ b.stop.val := Iff.rfl

/-- **C119**: allocation never panics; if any block of the width fits into `q`, the one with the lowest address is inserted and
returned, every entry is kept and nothing else is inserted; otherwise the map stays as it is. -/
theorem C119_alloc {m : NoditMap (Interval (BInt 0 hi)) V} (h : WF (I := BInt 0 hi) m.iter) {q : Interval (BInt 0 hi)} (hq : Valid q)
    (n : BInt 0 hi) (v : V) :
    ∃ m' r, alloc m q n v = .ok (m', r) ∧ WF (I := BInt 0 hi) m'.iter ∧
      (∀ b, r = some b → Fits m q n b ∧ (∀ b', Fits m q n b' → b.start ≤ b'.start) ∧ ∀ e, e ∈ m'.iter ↔ e ∈ m.iter ∨ e = (b, v)) ∧
      (r = none → m' = m ∧ ∀ b, ¬ Fits m q n b) := by
  obtain ⟨out, g1, g2, g3, g4⟩ := C15_gaps_trimmed h q hq
  obtain ⟨r, f1, f2, f3⟩ := firstFit_spec n out fun g hg => valid_iff.1 (g2.1 g hg)
  -- a block that fits lies in one of the gaps
  have inGap : ∀ b, Fits m q n b → ∃ g ∈ out, g.start ≤ b.start ∧ b.stop ≤ g.stop := by
    rintro b ⟨hw, hb⟩
    have hn := n.ge
    have hbv : Mem b.start b := mem_val.2 ⟨le_refl _, by omega⟩
    have hbe : Mem b.stop b := mem_val.2 ⟨by omega, le_refl _⟩
    obtain ⟨g, hg, hpg⟩ := (g4 b.start).2 (hb _ hbv)
    refine ⟨g, hg, hpg.1, ?_⟩
    obtain ⟨i, rfl, run, hrun, hi⟩ := (g3 g).1 hg
    have := (hi.2 b.start).1 hpg
    have hin := hrun.2.2 b (fun p hp => (hb p hp).2) ⟨b.start, this.1, hbv⟩ b.stop hbe
    exact ((hi.2 b.stop).2 ⟨hin, (hb _ hbe).1⟩).2
  cases r with
  | none =>
    refine ⟨m, none, ?_, h, by simp, fun _ => ⟨rfl, fun b hb => ?_⟩⟩
    · simp only [alloc, g1, f1, bind, Except.bind, pure, Except.pure]
    · obtain ⟨g, hg, a1, a2⟩ := inGap b hb
      have := f2 rfl g hg
      rw [BInt.le_def] at a1 a2
      have := hb.1
      omega
  | some g =>
    obtain ⟨l₁, l₂, rfl, w1, w2⟩ := f3 g rfl
    have hg : g ∈ l₁ ++ g :: l₂ := by simp
    have hge := g.stop.le; have hgs := g.start.ge; have hn := n.ge
    have hadd : BInt.addChecked g.start n = .ok ⟨g.start.val + n.val, by omega, by omega⟩ := by
      unfold BInt.addChecked BInt.checkedAdd BInt.ofInt?
      rw [dif_pos ⟨by omega, by omega⟩]
    set b : Interval (BInt 0 hi) := ⟨g.start, ⟨g.start.val + n.val, by omega, by omega⟩⟩ with hbdef
    have hfit : Fits m q n b := by
      refine ⟨rfl, fun p hp => (g4 p).1 ⟨g, hg, ?_⟩⟩
      have := mem_val.1 hp
      exact mem_val.2 ⟨this.1, by have h2 : p.val ≤ g.start.val + n.val := this.2; omega⟩
    have hbv : Valid b := ⟨b.start, mem_val.2 ⟨le_refl _, show g.start.val ≤ g.start.val + n.val by omega⟩⟩
    obtain ⟨m', r', i1, i2, i3, i4⟩ := NoditMap.spec_insertStrict h hbv v
    obtain ⟨i5, rfl⟩ := i4 (by
      rintro ⟨e, he, p, hpe, hpb⟩
      exact (hfit.2 p hpb).2 ⟨e, he, hpe⟩)
    refine ⟨m', some b, ?_, i2, ?_, by simp⟩
    · simp only [alloc, g1, f1, bind, Except.bind, pure, Except.pure, hadd]
      rw [← hbdef, i1]
    · rintro _ ⟨⟩
      refine ⟨hfit, fun b' hb' => ?_, fun e => ?_⟩
      · obtain ⟨g', hg', a1, a2⟩ := inGap b' hb'
        have hw' := hb'.1
        rw [BInt.le_def] at a1 a2
        show g.start ≤ b'.start
        rw [BInt.le_def]
        rcases List.mem_append.1 hg' with hx | hx
        · have := w2 g' hx
          omega
        · rcases List.mem_cons.1 hx with rfl | hx
          · exact a1
          · have hp := (List.pairwise_append.1 g2.2).2.1
            have := (List.pairwise_cons.1 hp).1 g' hx g.start g'.start
              (mem_val.2 ⟨le_refl _, by omega⟩) (mem_val.2 ⟨le_refl _, valid_iff.1 (g2.1 g' (by simp [hx]))⟩)
            rw [BInt.lt_def] at this
            omega
      · have := Set.ext_iff.1 i5 e
        exact this



/-! ## Histories of allocations and releases -/

/-- What a client of the allocator does: allocate a block of width `n` in `q` for the value `v`, or release the `i`-th of the
blocks it holds (nothing happens if it holds fewer). A client, models no lines of `/repo`. -/
inductive Cmd (hi : Int) (V : Type) where
  | alloc (q : Interval (BInt 0 hi)) (n : BInt 0 hi) (v : V)
  | free (i : Nat)

/-- The client: the map, the blocks it holds (with the values they were allocated for), and for every release the block released
together with what `cut` returned. A client, models no lines of `/repo`. -/
structure State (hi : Int) (V : Type) where
  map : NoditMap (Interval (BInt 0 hi)) V
  held : List (Interval (BInt 0 hi) × V)
  released : List ((Interval (BInt 0 hi) × V) × List (Interval (BInt 0 hi) × V))

/-- One command. A client, models no lines of `/repo`; releasing calls `cut` (`nodit/map.rs`). -/
def step (s : State hi V) : Cmd hi V → Res (State hi V)
  | .alloc q n v => do
    let (m, r) ← alloc s.map q n v
    match r with
    | none => pure { s with map := m }
    | some b => pure { s with map := m, held := (b, v) :: s.held }
  | .free i =>
    match s.held[i]? with
    | none => pure s
    | some e => do
      let (m, out) ← s.map.cut e.1
      pure { map := m, held := s.held.eraseIdx i, released := (e, out) :: s.released }

/-- Commands one after the other, from the empty map. A client, models no lines of `/repo`. -/
def run (cmds : List (Cmd hi V)) : Res (State hi V) := cmds.foldlM step ⟨NoditMap.new, [], []⟩

theorem wf_nodup {l : List (Interval (BInt 0 hi) × V)} (h : WF (I := BInt 0 hi) l) : l.Nodup := by
  have : l.Pairwise fun a b => a ∈ l ∧ Before (I := BInt 0 hi) a.1 b.1 := by
    refine List.Pairwise.imp_of_mem ?_ h.2
    intro a b ha _ hab
    exact ⟨ha, hab⟩
  refine this.imp ?_
  rintro a b ⟨ha, hab⟩ rfl
  obtain ⟨p, hp⟩ := h.1 a ha
  exact lt_irrefl _ (hab p p hp hp)

/-- cutting the interval of an entry gives back that entry and leaves the other entries -/
theorem cut_entry {m : NoditMap (Interval (BInt 0 hi)) V} (h : WF (I := BInt 0 hi) m.iter) {e : Interval (BInt 0 hi) × V}
    (he : e ∈ m.iter) :
    ∃ m', m.cut e.1 = .ok (m', [e]) ∧ WF (I := BInt 0 hi) m'.iter ∧ ∀ d, d ∈ m'.iter ↔ d ∈ m.iter ∧ d ≠ e := by
  obtain ⟨m', out, h1, h2, h3, h4, h5⟩ := C08_cut_exact h e.1 (h.1 e he)
  have hself : Overlap (I := BInt 0 hi) e.1 e.1 := by
    obtain ⟨p, hp⟩ := h.1 e he
    exact ⟨p, hp, hp⟩
  have hout : ∀ d, d ∈ out ↔ d = e := by
    intro d
    rw [h4]
    constructor
    · rintro ⟨f, hf, i, rfl, hd⟩
      obtain ⟨p, hp⟩ := hd.1
      have := (hd.2 p).1 hp
      obtain rfl := entries_disjoint h f hf e he ⟨p, this.1, this.2⟩
      have hi : i = f.1 := interval_eq_of_mem_iff hd.1 fun p => by rw [hd.2 p]; exact and_self_iff
      rw [hi]; rfl
    · rintro rfl
      exact ⟨d, he, d.1, rfl, h.1 d he, fun p => and_self_iff.symm⟩
  have hsing : out = [e] := by
    have hn := wf_nodup h3
    match out, hout, hn with
    | [], hout, _ => exact absurd ((hout e).2 rfl) (by simp)
    | [x], hout, _ => rw [(hout x).1 (by simp)]
    | x :: y :: t, hout, hn =>
      have a := (hout x).1 (by simp)
      have b := (hout y).1 (by simp)
      subst a; subst b
      simp at hn
  subst hsing
  refine ⟨m', h1, h2, fun d => ?_⟩
  rw [h5]
  constructor
  · rintro (⟨hd, hno⟩ | ⟨f, hf, ho, i, rfl, hd | hd⟩)
    · exact ⟨hd, by rintro rfl; exact hno hself⟩
    · obtain rfl := entries_disjoint h f hf e he ho
      obtain ⟨p, hp⟩ := hd.1
      have := (hd.2 p).1 hp
      exact absurd (this.2 p this.1) (lt_irrefl _)
    · obtain rfl := entries_disjoint h f hf e he ho
      obtain ⟨p, hp⟩ := hd.1
      have := (hd.2 p).1 hp
      exact absurd (this.2 p this.1) (lt_irrefl _)
  · rintro ⟨hd, hne⟩
    exact .inl ⟨hd, fun ho => hne (entries_disjoint h d hd e he ho)⟩

/-- what holds between commands -/
structure Good (s : State hi V) : Prop where
  wf : WF (I := BInt 0 hi) s.map.iter
  perm : s.held.Perm s.map.iter
  rel : ∀ x ∈ s.released, x.2 = [x.1]

theorem step_good {s : State hi V} (hs : Good s) (c : Cmd hi V) (hc : ∀ q n v, c = .alloc q n v → Valid q) :
    ∃ s', step s c = .ok s' ∧ Good s' := by
  cases c with
  | alloc q n v =>
    obtain ⟨m', r, h1, h2, h3, h4⟩ := C119_alloc hs.wf (hc q n v rfl) n v
    cases r with
    | none =>
      obtain ⟨rfl, -⟩ := h4 rfl
      exact ⟨s, by simp only [step, h1, bind, Except.bind, pure, Except.pure], hs⟩
    | some b =>
      obtain ⟨a1, -, a3⟩ := h3 b rfl
      refine ⟨⟨m', (b, v) :: s.held, s.released⟩, by simp only [step, h1, bind, Except.bind, pure, Except.pure], h2, ?_, hs.rel⟩
      have hb : (b, v) ∉ s.held := fun hm => by
        have hm := hs.perm.mem_iff.1 hm
        obtain ⟨p, hp⟩ := hs.wf.1 _ hm
        exact (a1.2 p hp).2 ⟨_, hm, hp⟩
      refine (List.perm_ext_iff_of_nodup (List.nodup_cons.2 ⟨hb, hs.perm.nodup_iff.2 (wf_nodup hs.wf)⟩) (wf_nodup h2)).2 fun e => ?_
      rw [List.mem_cons, a3, hs.perm.mem_iff, or_comm]
  | free i =>
    cases hi' : s.held[i]? with
    | none => exact ⟨s, by simp only [step, hi']; rfl, hs⟩
    | some e =>
      have hmem : e ∈ s.map.iter := hs.perm.mem_iff.1 (List.mem_of_getElem? hi')
      obtain ⟨m', h1, h2, h3⟩ := cut_entry hs.wf hmem
      refine ⟨⟨m', s.held.eraseIdx i, (e, [e]) :: s.released⟩, by simp only [step, hi', h1, bind, Except.bind, pure, Except.pure], h2, ?_, ?_⟩
      · have hn := hs.perm.nodup_iff.2 (wf_nodup hs.wf)
        refine (List.perm_ext_iff_of_nodup (hn.sublist (List.eraseIdx_sublist ..)) (wf_nodup h2)).2 fun d => ?_
        rw [h3, ← hs.perm.mem_iff]
        obtain ⟨hlt, he⟩ := List.getElem?_eq_some_iff.1 hi'
        rw [List.mem_eraseIdx_iff_getElem?]
        constructor
        · rintro ⟨j, hj, hd⟩
          refine ⟨List.mem_of_getElem? hd, ?_⟩
          rintro rfl
          exact hj ((List.getElem?_inj hlt hn).1 (by rw [hi', hd])).symm
        · rintro ⟨hd, hne⟩
          obtain ⟨j, hj⟩ := List.mem_iff_getElem?.1 hd
          refine ⟨j, ?_, hj⟩
          rintro rfl
          rw [hi'] at hj
          exact hne (Option.some.inj hj).symm
      · intro x hx
        rcases List.mem_cons.1 hx with rfl | hx
        · rfl
        · exact hs.rel x hx

theorem run_good (cmds : List (Cmd hi V)) (hv : ∀ q n v, Cmd.alloc q n v ∈ cmds → Valid q) :
    ∃ s, run cmds = .ok s ∧ Good s := by
  suffices H : ∀ s₀ : State hi V, Good s₀ → ∃ s, cmds.foldlM step s₀ = .ok s ∧ Good s from
    H _ ⟨⟨by simp [NoditMap.new, NoditMap.iter], by simp [NoditMap.new, NoditMap.iter]⟩, by simp [NoditMap.new, NoditMap.iter], by simp⟩
  induction cmds with
  | nil => exact fun s₀ h => ⟨s₀, rfl, h⟩
  | cons c t ih =>
    intro s₀ h
    obtain ⟨s₁, h1, h2⟩ := step_good h c fun q n v e => hv q n v (by simp [e])
    obtain ⟨s, h3, h4⟩ := ih (fun q n v hm => hv q n v (by simp [hm])) s₁ h2
    exact ⟨s, by simp only [List.foldlM_cons, h1, bind, Except.bind]; exact h3, h4⟩

/-- **C119**, histories: whatever a client allocates and releases in whatever order, no call panics, the entries of the map are
exactly the blocks it holds at the end, those never share a point, and every `cut` that released a block returned exactly
that block with the value it was allocated for. -/
theorem C119_history (cmds : List (Cmd hi V)) (hv : ∀ q n v, Cmd.alloc q n v ∈ cmds → Valid q) :
    ∃ s, run cmds = .ok s ∧ s.held.Perm s.map.iter ∧
      s.held.Pairwise (fun d e => ∀ p : BInt 0 hi, Mem p d.1 → ¬ Mem p e.1) ∧ ∀ x ∈ s.released, x.2 = [x.1] := by
  obtain ⟨s, h1, h2⟩ := run_good cmds hv
  refine ⟨s, h1, h2.perm, ?_, h2.rel⟩
  have hsym : ∀ {d e : Interval (BInt 0 hi) × V}, (∀ p : BInt 0 hi, Mem p d.1 → ¬ Mem p e.1) → ∀ p : BInt 0 hi, Mem p e.1 → ¬ Mem p d.1 :=
    fun h p he hd => h p hd he
  refine (h2.perm.pairwise_iff hsym).2 (h2.wf.2.imp fun hab p hp hp' => lt_irrefl _ (hab p p hp hp'))

/-- **C119**, space comes back: after any history in which the last command released a block, an allocation of at most its
width in a range that contains it succeeds. -/
theorem C119_reuse (cmds : List (Cmd hi V)) (hv : ∀ q n v, Cmd.alloc q n v ∈ cmds → Valid q) {i : Nat} {s : State hi V}
    {b : Interval (BInt 0 hi)} {w : V} (hs : run cmds = .ok s) (hb : s.held[i]? = some (b, w)) {q : Interval (BInt 0 hi)}
    (hq : ∀ p : BInt 0 hi, Mem p b → Mem p q) {n : BInt 0 hi} (hn : n.val ≤ b.stop.val - b.start.val) (v : V) :
    ∃ s' m' b', run (cmds ++ [.free i]) = .ok s' ∧ alloc s'.map q n v = .ok (m', some b') := by
  obtain ⟨s₁, h1, h2⟩ := run_good cmds hv
  rw [hs] at h1; cases h1
  have hmem : (b, w) ∈ s.map.iter := h2.perm.mem_iff.1 (List.mem_of_getElem? hb)
  obtain ⟨m₁, c1, c2, c3⟩ := cut_entry h2.wf hmem
  obtain ⟨p₀, hp₀⟩ := h2.wf.1 _ hmem
  obtain ⟨m', r, a1, a2, a3, a4⟩ := C119_alloc c2 (q := q) ⟨p₀, hq p₀ hp₀⟩ n v
  have hr : ∃ b', r = some b' := by
    cases r with
    | some b' => exact ⟨b', rfl⟩
    | none =>
      exfalso
      have hn0 := n.ge
      have hs0 := b.start.ge
      have he0 := b.stop.le
      refine (a4 rfl).2 ⟨b.start, ⟨b.start.val + n.val, by omega, by omega⟩⟩ ⟨rfl, fun p hp => ?_⟩
      have hpb : Mem p b := by
        have := mem_val.1 hp
        exact mem_val.2 ⟨this.1, by have h2 : p.val ≤ b.start.val + n.val := this.2; omega⟩
      refine ⟨hq p hpb, ?_⟩
      rintro ⟨e, he, hpe⟩
      have := (c3 e).1 he
      exact this.2 (entries_disjoint h2.wf e this.1 (b, w) hmem ⟨p, hpe, hpb⟩)
  obtain ⟨b', rfl⟩ := hr
  refine ⟨⟨m₁, s.held.eraseIdx i, ((b, w), [(b, w)]) :: s.released⟩, m', b', ?_, a1⟩
  have hs' : cmds.foldlM step ⟨NoditMap.new, [], []⟩ = .ok s := hs
  unfold run
  rw [List.foldlM_append, hs']
  simp only [bind, Except.bind, List.foldlM_cons, List.foldlM_nil, step, hb, c1, pure, Except.pure]

end Nodit.Alloc
