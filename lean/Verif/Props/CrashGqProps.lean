import Verif.CrashGq
import Verif.Props.CrashProps
import Verif.Props.GqditStore
/-!
# C79: panics of user code in the middle of a `Gqdit` call
-/
set_option linter.unusedSectionVars false
namespace Nodit
open Spec PointType

namespace Crash
open Act Gqdit

variable {I K Q D : Type} [PointType I] [IntervalType I K] [IntervalType I Q]
  [LawfulPoint I] [LawfulInterval I K] [DecidableEq D]

/-- `m'` is `m` with some points of `q` changed by `φ` and some points lost -/
structure Half (m : NoditMap K (Finset D)) (q : Q) (φ : Finset D → Finset D) (m' : NoditMap K (Finset D)) : Prop where
  wf : WF m'.iter
  vals : ∀ p w, At m'.iter p w → At m.iter p w ∨ (Mem p q ∧ ∃ v, At m.iter p v ∧ φ v = w)
  keep : ∀ e ∈ m.iter, ¬ (Overlap e.1 q ∨ Touch e.1 q) → e ∈ m'.iter

theorem Half.refl {m : NoditMap K (Finset D)} (h : WF m.iter) (q : Q) (φ : Finset D → Finset D) : Half m q φ m :=
  ⟨h, fun _ _ h => Or.inl h, fun _ h _ => h⟩

/-- touching a part of `q` from outside of `q` is touching `q` -/
theorem touch_part {e k : K} {q : Q} (he : Valid e) (hk : Valid k) (hq : Valid q) (hs : ∀ p, Mem p k → Mem p q)
    (ht : Touch e k) : Overlap e q ∨ Touch e q := by
  have he' := valid_iff.1 he
  have hk' := valid_iff.1 hk
  have hq' := valid_iff.1 hq
  by_contra hno
  rw [not_or] at hno
  have h1 := hs _ ⟨le_rfl, hk'⟩
  have h2 := hs _ ⟨hk', le_rfl⟩
  rw [overlap_iff he' hq', touch_iff he' hq'] at hno
  rw [touch_iff he' hk'] at ht
  simp only [up_eq_some, Mem] at *
  obtain ⟨ho, hn⟩ := hno
  rw [not_or] at hn
  rcases ht with ⟨h3, h4⟩ | ⟨h3, h4⟩
  · refine hn.1 ⟨?_, fun z hz => le_trans h1.1 (h4 z hz)⟩
    by_contra h5
    exact ho ⟨by order, by order⟩
  · refine hn.2 ⟨?_, fun z hz => h4 z (lt_of_le_of_lt h2.2 hz)⟩
    by_contra h5
    exact ho ⟨by order, by order⟩

theorem putBackIds_sat {m₀ m : NoditMap K (Finset D)} {q : Q} {φ : Finset D → Finset D} (h₀ : WF m₀.iter) (hq : Valid q)
    {l : List (K × Finset D)} (h : Half m₀ q φ m) (hl : WF l) (hno : ∀ e ∈ l, ∀ d ∈ m.iter, ¬ Overlap d.1 e.1)
    (hin : ∀ p v, At l p v → Mem p q ∧ At m₀.iter p v) :
    Sat (putBackIds φ l) m (fun _ m' => Gqdit.putBack φ m l = .ok m' ∧ Half m₀ q φ m') (Half m₀ q φ) (fun _ _ => False) := by
  induction l generalizing m with
  | nil => exact sat_pure ⟨rfl, h⟩
  | cons a l ih =>
    obtain ⟨k, ids⟩ := a
    have hk : Valid k := hl.1 (k, ids) (by simp)
    have hkq : ∀ p, Mem p k → Mem p q ∧ At m₀.iter p ids := fun p hp => hin p ids ⟨(k, ids), by simp, hp, rfl⟩
    have hno1 := hno (k, ids) (by simp)
    unfold putBackIds
    refine sat_user h ?_
    refine sat_bind (sat_weaken (insertMergeTouchingIfValuesEqual_sat (k := k) (v := φ ids) (wf_iff_chain.1 h.wf))
      (fun _ _ h => h) ?_ (fun p m' h => absurd hk h.1)) ?_
    · intro m' hs
      refine ⟨(hs.leaves h.wf).1, ?_, ?_⟩
      · rintro p w ⟨e, he, hp, rfl⟩
        exact h.vals p e.2 ⟨e, hs.1.subset he, hp, rfl⟩
      · intro e he hn
        by_contra he'
        have := hs.2 e (h.keep e he hn) he'
        exact hn (touch_part (h₀.1 e he) hk hq (fun p hp => (hkq p hp).1) this.1)
    · intro r m₁ hr
      obtain ⟨m', r', h1, h2, -, h4⟩ := C11_insert_merge_touching_if_values_equal h.wf k hk (φ ids)
      obtain ⟨m'', r'', h1', -, h5⟩ := insertMergeEq_weak h.wf hk (φ ids) hno1
      rw [hr] at h1 h1'
      injection h1 with h1
      injection h1 with ha hb
      injection h1' with h1'
      injection h1' with ha' hb'
      subst ha ha' hb
      obtain ⟨r₀, rfl, -, -, h7⟩ := h4 hno1
      have hl' : WF l := ⟨fun e he => hl.1 e (by simp [he]), (List.pairwise_cons.1 hl.2).2⟩
      have hh : Half m₀ q φ m₁ := by
        refine ⟨h2, ?_, ?_⟩
        · intro p w hw
          rcases (h5 p w).1 hw with hw | ⟨hp, rfl⟩
          · exact h.vals p w hw
          · exact Or.inr ⟨(hkq p hp).1, ids, (hkq p hp).2, rfl⟩
        · intro e he hn
          refine (h7 e).2 (Or.inl ⟨h.keep e he hn, fun ht => ?_⟩)
          exact hn (touch_part (h₀.1 e he) hk hq (fun p hp => (hkq p hp).1) ht.1)
      refine sat_weaken (ih hh hl' ?_ ?_) ?_ (fun _ h => h) (fun _ _ h => h)
      · rintro e he d hd ⟨p, hpd, hpe⟩
        rcases (h5 p d.2).1 ⟨d, hd, hpd, rfl⟩ with ⟨d', hd', hp', -⟩ | ⟨hpk, -⟩
        · exact hno e (by simp [he]) d' hd' ⟨p, hp', hpe⟩
        · exact lt_irrefl _ ((List.pairwise_cons.1 hl.2).1 e he p p hpk hpe)
      · rintro p v ⟨e, he, hp⟩
        exact hin p v ⟨e, by simp [he], hp⟩
      · rintro - m₂ ⟨e1, e2⟩
        refine ⟨?_, e2⟩
        rw [Gqdit.putBack, hr]
        exact e1

/-- what the three calls have in common -/
theorem cutPut_sat {m : NoditMap K (Finset D)} (h : WF m.iter) {q : Q} (hq : Valid q) (φ : Finset D → Finset D)
    {E : Panic → NoditMap K (Finset D) → Prop} :
    Sat (cut q >>= putBackIds φ) m
      (fun _ m' => ∃ mc out, m.cut q = .ok (mc, out) ∧ Gqdit.putBack φ mc out = .ok m') (Half m q φ) E := by
  refine sat_bind (sat_weaken (cut_sat h (E := E) (fun hn => absurd hq hn)) (fun _ _ h => h) ?_ (fun _ _ h => h)) ?_
  · rintro m' ⟨hw, hp⟩
    obtain ⟨h1, h2⟩ := partlyCut_sub hp
    refine ⟨hw, ?_, ?_⟩
    · rintro p w ⟨e, he, hp, rfl⟩
      obtain ⟨f, hf, hv, hm⟩ := h1 e he
      exact Or.inl ⟨f, hf, hm p hp, hv.symm⟩
    · intro e he hn
      by_contra he'
      exact hn (Or.inl (h2 e he he'))
  · rintro out mc ⟨hc, -⟩
    obtain ⟨c1, c2, -, -, -, c6, c7, c8⟩ := at_cut h hq hc
    obtain ⟨m', out', h1, -, -, -, h5⟩ := C08_cut_exact h q hq
    rw [hc] at h1
    cases h1
    have hh : Half m q φ mc := ⟨c1, fun p w hw => Or.inl ((c7 p w).1 hw).2,
      fun e he hn => (h5 e).2 (Or.inl ⟨he, fun h => hn (Or.inl h)⟩)⟩
    exact sat_weaken (putBackIds_sat h hq hh c2 c6 (fun p v hv => (c8 p v).1 hv)) (fun _ _ h => ⟨_, _, hc, h.1⟩) (fun _ h => h)
      (fun _ _ h => h.elim)

theorem inner_sat {α : Type} {x : Act (NoditMap K (Finset D)) α} {g : Gqdit K D} {P : α → Gqdit K D → Prop}
    {C : Gqdit K D → Prop} {E : Panic → Gqdit K D → Prop}
    (h : Sat x g.inner (fun a m => P a ⟨m⟩) (fun m => C ⟨m⟩) (fun p m => E p ⟨m⟩)) : Sat (inner x) g P C E := by
  intro n
  have h := h n
  revert h
  unfold inner
  simp only
  rcases x g.inner n with ⟨(e | a), s', n'⟩
  · cases e <;> exact id
  · exact id

/-- a panic of the crate: only for an interval without points, with nothing changed -/
def GqInvalid (q : Q) (g : Gqdit K D) : Panic → Gqdit K D → Prop :=
  fun p g' => ¬ Valid q ∧ p = .invalidInterval ∧ g' = g

theorem insertIds_sat {g : Gqdit K D} (h : WF g.inner.iter) (ids : Finset D) (k : K) :
    Sat (insertIds ids k) g (fun _ g' => g.insert ids k = .ok g')
      (fun g' => Half g.inner k (fun s => s ∪ ids) g'.inner) (GqInvalid k g) := by
  unfold insertIds
  refine sat_user (Half.refl h _ _) ?_
  refine sat_check (fun hn => ⟨hn, rfl, rfl⟩) ?_
  intro hv
  by_cases he : ids = ∅
  · rw [if_pos he]
    refine sat_pure ?_
    rw [Gqdit.insert, invalidIntervalPanic_ok (valid_iff.1 hv)]
    simp only [bind, Except.bind, pure, Except.pure, if_pos he]
  · rw [if_neg he]
    refine inner_sat (sat_weaken (cutPut_sat h hv _ (E := fun p m => GqInvalid k g p ⟨m⟩)) ?_ (fun _ h => h) (fun _ _ h => h))
    rintro - m' ⟨mc, out, h1, h2⟩
    rw [Gqdit.insert, invalidIntervalPanic_ok (valid_iff.1 hv)]
    simp only [bind, Except.bind, pure, Except.pure, if_neg he, h1, h2]

theorem cutWithIdentifiers_sat {g : Gqdit K D} (h : WF g.inner.iter) (ids : Finset D) (q : Q) :
    Sat (cutWithIdentifiers ids q) g (fun _ g' => g.cutWithIdentifiers ids q = .ok g')
      (fun g' => Half g.inner q (fun s => s.filter (fun i => i ∉ ids)) g'.inner) (GqInvalid q g) := by
  unfold cutWithIdentifiers
  refine sat_user (Half.refl h _ _) ?_
  refine sat_check (fun hn => ⟨hn, rfl, rfl⟩) ?_
  intro hv
  by_cases he : ids = ∅
  · rw [if_pos he]
    refine sat_pure ?_
    rw [Gqdit.cutWithIdentifiers, invalidIntervalPanic_ok (valid_iff.1 hv)]
    simp only [bind, Except.bind, pure, Except.pure, if_pos he]
  · rw [if_neg he]
    refine inner_sat (sat_weaken (cutPut_sat h hv _ (E := fun p m => GqInvalid q g p ⟨m⟩)) ?_ (fun _ h => h) (fun _ _ h => h))
    rintro - m' ⟨mc, out, h1, h2⟩
    rw [Gqdit.cutWithIdentifiers, invalidIntervalPanic_ok (valid_iff.1 hv)]
    simp only [bind, Except.bind, pure, Except.pure, if_neg he, h1, h2]

theorem cutAllIdentifiers_sat {g : Gqdit K D} (h : WF g.inner.iter) (q : Q) :
    Sat (cutAllIdentifiers q) g (fun _ g' => g.cutAllIdentifiers q = .ok g')
      (fun g' => Half g.inner q (fun _ => ∅) g'.inner) (GqInvalid q g) := by
  unfold cutAllIdentifiers
  refine sat_user (Half.refl h _ _) ?_
  refine sat_check (fun hn => ⟨hn, rfl, rfl⟩) ?_
  intro hv
  refine inner_sat (sat_weaken (cutPut_sat h hv _ (E := fun p m => GqInvalid q g p ⟨m⟩)) ?_ (fun _ h => h) (fun _ _ h => h))
  rintro - m' ⟨mc, out, h1, h2⟩
  rw [Gqdit.cutAllIdentifiers, invalidIntervalPanic_ok (valid_iff.1 hv)]
  simp only [bind, Except.bind, pure, Except.pure, h1, h2]

/-- every well-formed `Gqdit` is the result of a program -/
theorem prog_of_wf {m : NoditMap K (Finset D)} (h : WF m.iter) :
    ∃ h' : GqProg I K D, h'.Fine ∧ evalProg h' = .ok (⟨m⟩ : Gqdit K D) ∧ RepW (⟨m⟩ : Gqdit K D) h'.contents := by
  have hf : (GqProg.deserialized m.iter : GqProg I K D).Fine :=
    ⟨h.1, h.2.imp (fun hab ho => by obtain ⟨p, h1, h2⟩ := ho; exact lt_irrefl _ (hab p p h1 h2))⟩
  obtain ⟨g, h1, h2⟩ := evalProg_rep hf
  obtain ⟨m', h3, h4, h5⟩ := C47_map_accepts (E := Empty) hf.1 hf.2
  have : m' = m := NoditMap.ext_entries h4 h h5
  subst this
  have h6 : evalProg (GqProg.deserialized m'.iter : GqProg I K D) = .ok ⟨m'⟩ := by
    rw [evalProg, gq_deserialize, h3]; rfl
  rw [h6] at h1
  cases h1
  exact ⟨_, hf, h6, h2⟩

open Classical in
theorem half_contents {m m' : NoditMap K (Finset D)} {f f' : I → Option (Finset D)} {q : Q} {φ : Finset D → Finset D}
    (hf : RepW ⟨m⟩ f) (hf' : RepW ⟨m'⟩ f') (hh : Half m q φ m') (p : I) :
    f' p = none ∨ f' p = f p ∨ f' p = if Mem p q then (f p).map φ else f p := by
  cases hp : f' p with
  | none => exact Or.inl rfl
  | some w =>
    right
    rcases hh.vals p w ((hf'.at_iff p w).2 hp) with h | ⟨hq, v, hv, rfl⟩
    · exact Or.inl ((hf.at_iff p w).1 h).symm
    · right
      rw [if_pos hq, (hf.at_iff p v).1 hv]; rfl
end Crash

open Crash Gqdit
variable {I K D : Type} [PointType I] [IntervalType I K] [LawfulPoint I] [LawfulInterval I K] [DecidableEq D]

theorem gqStep_cases {h : GqProg I K D} {g : Gqdit K D} (hf : h.Fine) (hg : evalProg h = .ok g) (op : GqOp I K D)
    (n : Option Nat) :
    let r := gqStep op g n
    (r.1 = .ok () ∧ (¬ op.Bad → (h.call op).Fine) ∧ evalProg (h.call op) = .ok r.2.1) ∨
    (r.1 = .error (.crate .invalidInterval) ∧ op.Bad ∧ r.2.1 = g) ∨
    (r.1 = .error .user ∧ n ≠ none ∧ ∃ h' : GqProg I K D, h'.Fine ∧ evalProg h' = .ok r.2.1 ∧
      (∀ p, h'.contents p = none ∨ h'.contents p = h.contents p ∨ h'.contents p = (h.call op).contents p) ∧
      ∀ e ∈ g.serialize.elems, ¬ op.Near e.1 → e ∈ r.2.1.serialize.elems) := by
  classical
  obtain ⟨g₀, e1, hr⟩ := evalProg_rep hf
  rw [hg] at e1
  cases e1
  have key : Sat (gqStep op) g (fun _ g' => (¬ op.Bad → (h.call op).Fine) ∧ evalProg (h.call op) = .ok g')
      (fun g' => ∃ h' : GqProg I K D, h'.Fine ∧ evalProg h' = .ok g' ∧
        (∀ p, h'.contents p = none ∨ h'.contents p = h.contents p ∨ h'.contents p = (h.call op).contents p) ∧
        ∀ e ∈ g.serialize.elems, ¬ op.Near e.1 → e ∈ g'.serialize.elems)
      (fun p g' => op.Bad ∧ p = .invalidInterval ∧ g' = g) := by
    cases op with
    | insert ids k =>
      refine sat_weaken (insertIds_sat hr.wf ids k) ?_ ?_ (fun _ _ h => h)
      · intro _ g' hg'
        refine ⟨fun hb => ⟨hf, not_not.1 hb⟩, ?_⟩
        simp only [GqProg.call, evalProg, hg]; exact hg'
      · intro g' hh
        obtain ⟨h', h1, h2, h3⟩ := prog_of_wf hh.wf
        exact ⟨h', h1, h2, half_contents hr h3 hh, hh.keep⟩
    | cutWithIdentifiers ids q =>
      refine sat_weaken (cutWithIdentifiers_sat hr.wf ids q) ?_ ?_ (fun _ _ h => h)
      · intro _ g' hg'
        refine ⟨fun hb => ⟨hf, not_not.1 hb⟩, ?_⟩
        simp only [GqProg.call, evalProg, hg]; exact hg'
      · intro g' hh
        obtain ⟨h', h1, h2, h3⟩ := prog_of_wf hh.wf
        refine ⟨h', h1, h2, fun p => ?_, hh.keep⟩
        have := half_contents hr h3 hh p
        have hsd : (fun s : Finset D => s.filter (fun i => i ∉ ids)) = (fun s => s \ ids) := by
          funext v; ext x; simp
        rw [hsd] at this
        exact this
    | cutAllIdentifiers q =>
      refine sat_weaken (cutAllIdentifiers_sat hr.wf q) ?_ ?_ (fun _ _ h => h)
      · intro _ g' hg'
        refine ⟨fun hb => ⟨hf, not_not.1 hb⟩, ?_⟩
        simp only [GqProg.call, evalProg, hg]; exact hg'
      · intro g' hh
        obtain ⟨h', h1, h2, h3⟩ := prog_of_wf hh.wf
        exact ⟨h', h1, h2, half_contents hr h3 hh, hh.keep⟩
  have key := key n
  revert key
  rcases gqStep op g n with ⟨(e | o), g', n'⟩
  · cases e with
    | user => exact fun h => Or.inr (Or.inr ⟨rfl, h.2, h.1⟩)
    | crate p =>
      rintro ⟨h1, rfl, rfl⟩
      exact Or.inr (Or.inl ⟨rfl, h1, rfl⟩)
  · rintro ⟨h1, -⟩
    exact Or.inl ⟨rfl, h1⟩

theorem evalProg_call_bad {h : GqProg I K D} {g : Gqdit K D} (hg : evalProg h = .ok g) {op : GqOp I K D} (hb : op.Bad) :
    evalProg (h.call op) = .error .invalidInterval := by
  cases op with
  | insert ids k => simp only [GqProg.call, evalProg, hg]; exact insert_bad hb
  | cutWithIdentifiers ids q => simp only [GqProg.call, evalProg, hg]; exact cutWith_bad hb
  | cutAllIdentifiers q => simp only [GqProg.call, evalProg, hg]; exact cutAll_bad hb

theorem call_fine {h : GqProg I K D} (hf : h.Fine) {op : GqOp I K D} (hb : ¬ op.Bad) : (h.call op).Fine := by
  cases op <;> exact ⟨hf, not_not.1 hb⟩

/-- **C79**: when no user code panics, the imperative transcription of the calls does what the model used for the other
properties says. -/
theorem C79_undisturbed {h : GqProg I K D} {g : Gqdit K D} (hf : h.Fine) (hg : evalProg h = .ok g) (op : GqOp I K D) :
    (∀ g', evalProg (h.call op) = .ok g' → (gqStep op g none).1 = .ok () ∧ (gqStep op g none).2.1 = g') ∧
    (∀ p, evalProg (h.call op) = .error p → (gqStep op g none).1 = .error (.crate p) ∧ (gqStep op g none).2.1 = g) := by
  rcases gqStep_cases hf hg op none with ⟨h1, -, h3⟩ | ⟨h1, h2, h3⟩ | ⟨-, h2, -⟩
  · rw [h3]
    exact ⟨fun g' e => ⟨h1, by injection e⟩, fun p e => (nomatch e)⟩
  · rw [evalProg_call_bad hg h2]
    exact ⟨fun g' e => (nomatch e), fun p e => by injection e with e; subst e; exact ⟨h1, h3⟩⟩
  · exact absurd rfl h2

/-- **C79**: wherever in a call of a `Gqdit` user code panics, what is left is a `Gqdit` as it could come from
deserialisation; at every point it holds the identifiers from before the call, or those after the call, or nothing at all
can be held there any more; and the stored intervals that neither overlap nor touch the argument are unchanged. -/
theorem C79_crash_leaves {h : GqProg I K D} {g : Gqdit K D} (hf : h.Fine) (hg : evalProg h = .ok g) (op : GqOp I K D)
    (n : Option Nat) (hc : (gqStep op g n).1 = .error .user) :
    ∃ h' : GqProg I K D, h'.Fine ∧ evalProg h' = .ok (gqStep op g n).2.1 ∧
      (∀ p, h'.contents p = none ∨ h'.contents p = h.contents p ∨ h'.contents p = (h.call op).contents p) ∧
      ∀ e ∈ g.serialize.elems, ¬ op.Near e.1 → e ∈ (gqStep op g n).2.1.serialize.elems := by
  rcases gqStep_cases hf hg op n with ⟨h1, -⟩ | ⟨h1, -⟩ | ⟨-, -, h2⟩
  · rw [h1] at hc; cases hc
  · rw [h1] at hc; cases hc
  · exact h2

theorem contents_call_sub (h : GqProg I K D) (op : GqOp I K D) {p : I} {s : Finset D} (hs : (h.call op).contents p = some s)
    {d : D} (hd : d ∈ s) : (∃ t, h.contents p = some t ∧ d ∈ t) ∨ ∃ ids k, op = .insert ids k ∧ Mem p k ∧ d ∈ ids := by
  cases op with
  | insert ids k =>
    simp only [GqProg.call, GqProg.contents] at hs
    split_ifs at hs with hp
    · rw [Option.map_eq_some_iff] at hs
      obtain ⟨t, ht, rfl⟩ := hs
      rcases Finset.mem_union.1 hd with hd | hd
      · exact Or.inl ⟨t, ht, hd⟩
      · exact Or.inr ⟨ids, k, rfl, hp, hd⟩
    · exact Or.inl ⟨s, hs, hd⟩
  | cutWithIdentifiers ids q =>
    simp only [GqProg.call, GqProg.contents] at hs
    split_ifs at hs with hp
    · rw [Option.map_eq_some_iff] at hs
      obtain ⟨t, ht, rfl⟩ := hs
      exact Or.inl ⟨t, ht, (Finset.mem_sdiff.1 hd).1⟩
    · exact Or.inl ⟨s, hs, hd⟩
  | cutAllIdentifiers q =>
    simp only [GqProg.call, GqProg.contents] at hs
    split_ifs at hs with hp
    · rw [Option.map_eq_some_iff] at hs
      obtain ⟨t, ht, rfl⟩ := hs
      simp at hd
    · exact Or.inl ⟨s, hs, hd⟩

/-- **C79**: after any history of calls with panics of user code anywhere, the `Gqdit` is still as it could come from
deserialisation (so C71 and C72 tell what all its methods do), and an identifier at a point was there at the beginning or was
inserted there by one of the calls; a point that could hold nothing at the beginning still cannot. -/
theorem C79_history {h : GqProg I K D} {g : Gqdit K D} (hf : h.Fine) (hg : evalProg h = .ok g)
    (ops : List (GqOp I K D × Option Nat)) :
    ∃ h' : GqProg I K D, h'.Fine ∧ evalProg h' = .ok (gqRun g ops) ∧
      (∀ p s d, h'.contents p = some s → d ∈ s → (∃ t, h.contents p = some t ∧ d ∈ t) ∨
        ∃ ids k n, (GqOp.insert ids k, n) ∈ ops ∧ Mem p k ∧ d ∈ ids) ∧
      ∀ p, h.contents p = none → h'.contents p = none := by
  induction ops generalizing h g with
  | nil => exact ⟨h, hf, hg, fun p s d hs hd => Or.inl ⟨s, hs, hd⟩, fun _ h => h⟩
  | cons x ops ih =>
    obtain ⟨op, n⟩ := x
    have key : ∃ h₁ : GqProg I K D, h₁.Fine ∧ evalProg h₁ = .ok (gqStep op g n).2.1 ∧
        ∀ p, h₁.contents p = none ∨ h₁.contents p = h.contents p ∨ h₁.contents p = (h.call op).contents p := by
      rcases gqStep_cases hf hg op n with ⟨-, h2, h3⟩ | ⟨-, -, h3⟩ | ⟨-, -, h', h2, h3, h4, -⟩
      · have hb : ¬ op.Bad := fun hb => by rw [evalProg_call_bad hg hb] at h3; cases h3
        exact ⟨_, h2 hb, h3, fun p => Or.inr (Or.inr rfl)⟩
      · exact ⟨h, hf, by rw [h3]; exact hg, fun p => Or.inr (Or.inl rfl)⟩
      · exact ⟨h', h2, h3, h4⟩
    obtain ⟨h₁, hf₁, hg₁, hc₁⟩ := key
    obtain ⟨h', h1, h2, h3, h4⟩ := ih hf₁ hg₁
    refine ⟨h', h1, h2, fun p s d hs hd => ?_, fun p hp => h4 p ?_⟩
    swap
    · rcases hc₁ p with h5 | h5 | h5
      · exact h5
      · rw [h5, hp]
      · rw [h5]
        cases op <;> simp [GqProg.call, GqProg.contents, hp]
    rcases h3 p s d hs hd with ⟨t, ht, hdt⟩ | ⟨ids, k, n', hm, hp⟩
    · rcases hc₁ p with h5 | h5 | h5
      · rw [h5] at ht; cases ht
      · exact Or.inl ⟨t, by rw [← h5]; exact ht, hdt⟩
      · rw [h5] at ht
        rcases contents_call_sub h op ht hdt with h6 | ⟨ids, k, rfl, hp⟩
        · exact Or.inl h6
        · exact Or.inr ⟨ids, k, n, by simp, hp⟩
    · exact Or.inr ⟨ids, k, n', by simp [hm], hp⟩

/-! ### `append` -/

namespace Crash
open Act

theorem onSelf_sat {α : Type} {x : Act (Gqdit K D) α} {s : Gqdit K D × Gqdit K D} {P : α → Gqdit K D × Gqdit K D → Prop}
    {C : Gqdit K D × Gqdit K D → Prop} {E : Panic → Gqdit K D × Gqdit K D → Prop}
    (h : Sat x s.1 (fun a g => P a (g, s.2)) (fun g => C (g, s.2)) (fun p g => E p (g, s.2))) : Sat (onSelf x) s P C E := by
  intro n
  have h := h n
  revert h
  unfold onSelf
  simp only
  rcases x s.1 n with ⟨(e | a), s', n'⟩
  · cases e <;> exact id
  · exact id

theorem onOther_sat {α : Type} {x : Act (Gqdit K D) α} {s : Gqdit K D × Gqdit K D} {P : α → Gqdit K D × Gqdit K D → Prop}
    {C : Gqdit K D × Gqdit K D → Prop} {E : Panic → Gqdit K D × Gqdit K D → Prop}
    (h : Sat x s.2 (fun a g => P a (s.1, g)) (fun g => C (s.1, g)) (fun p g => E p (s.1, g))) : Sat (onOther x) s P C E := by
  intro n
  have h := h n
  revert h
  unfold onOther
  simp only
  rcases x s.2 n with ⟨(e | a), s', n'⟩
  · cases e <;> exact id
  · exact id

theorem insertAllIds_sat {g : Gqdit K D} {f : I → Option (Finset D)} (h : RepW g f) {l : List (K × Finset D)} (hl : WF l) :
    Sat (insertAllIds l) g (fun _ g' => g.insertAll l = .ok g')
      (fun g' => ∃ f', RepW g' f' ∧ ∀ p, f' p = none ∨ f' p = f p ∨
        ∃ e ∈ l, Mem p e.1 ∧ f' p = (f p).map (fun s => s ∪ e.2)) (fun _ _ => False) := by
  classical
  induction l generalizing g f with
  | nil => exact sat_pure rfl
  | cons a l ih =>
    obtain ⟨k, ids⟩ := a
    have hk : Valid k := hl.1 (k, ids) (by simp)
    have hl' : WF l := ⟨fun e he => hl.1 e (by simp [he]), (List.pairwise_cons.1 hl.2).2⟩
    have hb := (List.pairwise_cons.1 hl.2).1
    unfold insertAllIds
    refine sat_bind (sat_weaken (insertIds_sat h.wf ids k) (fun _ _ h => h) ?_ (fun p g' h => absurd hk h.1)) ?_
    · intro g' hh
      obtain ⟨h', -, -, h3⟩ := prog_of_wf hh.wf
      refine ⟨h'.contents, h3, fun p => ?_⟩
      rcases half_contents h h3 hh p with h4 | h4 | h4
      · exact Or.inl h4
      · exact Or.inr (Or.inl h4)
      · split_ifs at h4 with hp
        · exact Or.inr (Or.inr ⟨(k, ids), by simp, hp, h4⟩)
        · exact Or.inr (Or.inl h4)
    · rintro - g₁ hg₁
      obtain ⟨g₁', e1, e2⟩ := h.insert hk ids
      rw [hg₁] at e1
      cases e1
      refine sat_weaken (ih e2 hl') ?_ ?_ (fun _ _ h => h)
      · rintro - g' hg'
        rw [Gqdit.insertAll, hg₁]; exact hg'
      · rintro g' ⟨f', h1, h2⟩
        refine ⟨f', h1, fun p => ?_⟩
        rcases h2 p with h4 | h4 | ⟨e, he, hp, h4⟩
        · exact Or.inl h4
        · split_ifs at h4 with hp
          · exact Or.inr (Or.inr ⟨(k, ids), by simp, hp, h4⟩)
          · exact Or.inr (Or.inl h4)
        · have hpk : ¬ Mem p k := fun hpk => lt_irrefl _ (hb e he p p hpk hp)
          rw [if_neg hpk] at h4
          exact Or.inr (Or.inr ⟨e, by simp [he], hp, h4⟩)

theorem append_sat {g o : Gqdit K D} {f f' : I → Option (Finset D)} (hg : RepW g f) (ho : RepW o f') :
    Sat append (g, o) (fun _ s => g.append o = .ok s)
      (fun s => ∃ c c', RepW s.1 c ∧ RepW s.2 c' ∧
        (∀ p, c p = none ∨ c p = f p ∨ c p = (f p).map (fun t => t ∪ (f' p).getD ∅)) ∧
        ∀ p, c' p = none ∨ c' p = f' p) (fun _ _ => False) := by
  have hfull : (uu : Res (Interval I)) = .ok ⟨MIN, MAX⟩ := by
    unfold uu mkChecked; rw [invalidIntervalPanic_ok (min_le _)]; rfl
  have hm : ∀ p : I, Mem p (⟨MIN, MAX⟩ : Interval I) := fun p => ⟨min_le p, le_max p⟩
  have hv : Valid (⟨MIN, MAX⟩ : Interval I) := ⟨MIN, hm _⟩
  unfold append
  refine sat_user ⟨f, f', hg, ho, fun p => Or.inr (Or.inl rfl), fun p => Or.inr rfl⟩ ?_
  refine sat_res hfull ?_
  refine sat_bind (Q := fun l (s : Gqdit K D × Gqdit K D) => s.1 = g ∧
    o.inner.removeOverlapping (⟨MIN, MAX⟩ : Interval I) = .ok (s.2.inner, l)) (onOther_sat (inner_sat ?_)) ?_
  · refine sat_weaken (removeOverlapping_sat (wf_iff_chain.1 ho.wf) (E := fun _ _ => False) (fun hn => hn hv)) ?_ ?_ (fun _ _ h => h)
    · rintro l m ⟨h1, -⟩
      exact ⟨rfl, h1⟩
    · intro m hs
      obtain ⟨h', -, -, h3⟩ := prog_of_wf (hs.leaves ho.wf).1
      refine ⟨f, h'.contents, hg, h3, fun p => Or.inr (Or.inl rfl), fun p => ?_⟩
      cases hp : h'.contents p with
      | none => exact Or.inl rfl
      | some w =>
        obtain ⟨e, he, hpe, rfl⟩ := (h3.at_iff p w).2 hp
        exact Or.inr ((ho.at_iff p e.2).1 ⟨e, hs.1.subset he, hpe, rfl⟩).symm
  · rintro l ⟨g₁, o'⟩ ⟨rfl, hr⟩
    obtain ⟨m', out, h1, h2, h3, h4, h5⟩ := C07_remove_overlapping ho.wf (⟨MIN, MAX⟩ : Interval I) hv
    rw [hr] at h1
    cases h1
    refine onSelf_sat (sat_weaken (insertAllIds_sat hg h3) ?_ ?_ (fun _ _ h => h))
    · rintro - g' hg'
      unfold Gqdit.append
      rw [hfull]; simp only [bind, Except.bind, hr, hg']; rfl
    · rintro g' ⟨c, hc, hp⟩
      obtain ⟨h', -, -, h7⟩ := prog_of_wf h2
      refine ⟨c, h'.contents, hc, h7, fun p => ?_, fun p => ?_⟩
      · rcases hp p with h8 | h8 | ⟨e, he, hpe, h8⟩
        · exact Or.inl h8
        · exact Or.inr (Or.inl h8)
        · right; right
          rw [h8, (ho.at_iff p e.2).1 ⟨e, ((h4 e).1 he).1, hpe, rfl⟩]
          rfl
      · cases hp : h'.contents p with
        | none => exact Or.inl rfl
        | some w =>
          obtain ⟨e, he, hpe, rfl⟩ := (h7.at_iff p w).2 hp
          exact Or.inr ((ho.at_iff p e.2).1 ⟨e, ((h5 e).1 he).1, hpe, rfl⟩).symm
end Crash

/-- **C79**, `append`: undisturbed it does what the model says; wherever user code panics, `self` holds at every point what it
held before, or the union with what `other` held, or nothing can be held there any more; and `other` holds at every point what it
held or nothing. -/
theorem C79_append {h o : GqProg I K D} {g g₂ : Gqdit K D} (hf : h.Fine) (hg : evalProg h = .ok g) (hf₂ : o.Fine)
    (hg₂ : evalProg o = .ok g₂) (n : Option Nat) :
    ((Crash.append (g, g₂) n).1 = .ok () ∧ g.append g₂ = .ok (Crash.append (g, g₂) n).2.1) ∨
    ((Crash.append (g, g₂) n).1 = .error .user ∧ n ≠ none ∧ ∃ h' o' : GqProg I K D, h'.Fine ∧ o'.Fine ∧
      evalProg h' = .ok (Crash.append (g, g₂) n).2.1.1 ∧ evalProg o' = .ok (Crash.append (g, g₂) n).2.1.2 ∧
      (∀ p, h'.contents p = none ∨ h'.contents p = h.contents p ∨ h'.contents p = (GqProg.append h o).contents p) ∧
      ∀ p, o'.contents p = none ∨ o'.contents p = o.contents p) := by
  obtain ⟨g', e1, hr⟩ := evalProg_rep hf
  rw [hg] at e1; cases e1
  obtain ⟨g', e1, hr₂⟩ := evalProg_rep hf₂
  rw [hg₂] at e1; cases e1
  have key := append_sat hr hr₂ n
  revert key
  rcases Crash.append (g, g₂) n with ⟨(e | u), ⟨s1, s2⟩, n'⟩
  · cases e with
    | crate p => exact fun h => h.elim
    | user =>
      rintro ⟨⟨c, c', h1, h2, h3, h4⟩, hn⟩
      refine Or.inr ⟨rfl, hn, ?_⟩
      obtain ⟨h', a1, a2, a3⟩ := prog_of_wf h1.wf
      obtain ⟨o', b1, b2, b3⟩ := prog_of_wf h2.wf
      have ec : h'.contents = c := by
        funext p
        cases hp : h'.contents p with
        | some w => exact ((h1.at_iff p w).1 ((a3.at_iff p w).2 hp)).symm
        | none =>
          cases hq : c p with
          | none => rfl
          | some w => rw [(a3.at_iff p w).1 ((h1.at_iff p w).2 hq)] at hp; cases hp
      have ec' : o'.contents = c' := by
        funext p
        cases hp : o'.contents p with
        | some w => exact ((h2.at_iff p w).1 ((b3.at_iff p w).2 hp)).symm
        | none =>
          cases hq : c' p with
          | none => rfl
          | some w => rw [(b3.at_iff p w).1 ((h2.at_iff p w).2 hq)] at hp; cases hp
      rw [← ec] at h3
      rw [← ec'] at h4
      exact ⟨h', o', a1, b1, a2, b2, h3, h4⟩
  · rintro ⟨h1, -⟩
    exact Or.inl ⟨rfl, h1⟩

namespace Demo
/-- one identifier at `5..=9` -/
def gc : GqProg U8 (Interval U8) Nat := .insert .new {1} (iv 5 9)
def gc0 : Gqdit (Interval U8) Nat := ⟨⟨[(iv 0 4, ∅), (iv 5 9, {1}), (iv 10 255, ∅)]⟩⟩
end Demo

/-- **C79**: an interrupted `insert({2}, 7..=20)` can leave a `Gqdit` that no longer holds the identifier `1` at `8`, offers no
gap there, and silently drops all further inserts there. -/
theorem C79_hole_swallows_inserts : Demo.gc.Fine ∧ evalProg Demo.gc = .ok Demo.gc0 ∧
    (match (gqStep (.insert {2} (Demo.iv 7 20)) Demo.gc0 (some 14)).1 with | .error .user => True | _ => False) ∧
    let g := (gqStep (.insert {2} (Demo.iv 7 20)) Demo.gc0 (some 14)).2.1
    g.identifiersAtPoint (Demo.u8 8) = .ok ∅ ∧ g.gapsNoIdentifier (Demo.iv 8 8) = .ok [] ∧
    ∃ g', g.insert {3} (Demo.iv 8 8) = .ok g' ∧ g' = g := by
  refine ⟨⟨trivial, valid_iff.2 (by decide)⟩, by decide, trivial, by decide, by decide, _, rfl, by decide⟩

end Nodit
