import Verif.SetHistory
import Verif.CrashSet
import Verif.Props.SetProps
import Verif.Props.Locality
import Verif.Props.CrashProps
/-!
# C22, C93: whole histories of a `NoditSet`, with results

Every call of a `NoditSet` is a call of the underlying `NoditMap` with its result projected; so the histories of sets refine
a plain set of intervals (C22), and the theorem about clients on separate regions (C93) carries over.
-/
set_option linter.unusedSectionVars false
namespace Nodit
open Spec PointType NoditSet

variable {I K : Type} [PointType I] [IntervalType I K] [LawfulPoint I] [LawfulInterval I K]

omit [LawfulPoint I] [LawfulInterval I K] in
theorem stepCall_eq (s : NoditSet K) (op : SetCall I K) :
    s.stepCall op = (s.inner.step op.toMap).map (fun r => (⟨r.1⟩, SetOut.ofMap r.2)) := by
  have herr : ∀ {α : Type} (r : Except (OverlapError Unit) α), errUnit r = NoditMap.errValue r := by
    intro α r; cases r <;> rfl
  cases op with
  | insertStrict k =>
    simp only [stepCall, NoditMap.step, SetCall.toMap, NoditSet.insertStrict, bind, Except.bind, pure, Except.pure, Except.map]
    cases s.inner.insertStrict k () <;> simp [SetOut.ofMap, herr]
  | insertMergeTouching k =>
    simp only [stepCall, NoditMap.step, SetCall.toMap, NoditSet.insertMergeTouching, bind, Except.bind, pure, Except.pure, Except.map]
    cases s.inner.insertMergeTouching k () <;> simp [SetOut.ofMap, herr]
  | insertMergeOverlapping k =>
    simp only [stepCall, NoditMap.step, SetCall.toMap, NoditSet.insertMergeOverlapping, bind, Except.bind, pure, Except.pure, Except.map]
    cases s.inner.insertMergeOverlapping k () <;> rfl
  | insertMergeTouchingOrOverlapping k =>
    simp only [stepCall, NoditMap.step, SetCall.toMap, NoditSet.insertMergeTouchingOrOverlapping, bind, Except.bind, pure, Except.pure, Except.map]
    cases s.inner.insertMergeTouchingOrOverlapping k () <;> rfl
  | insertOverwrite k =>
    simp only [stepCall, NoditMap.step, SetCall.toMap, NoditSet.insertOverwrite, bind, Except.bind, pure, Except.pure, Except.map]
    cases s.inner.insertOverwrite k () <;> rfl
  | cut q =>
    simp only [stepCall, NoditMap.step, SetCall.toMap, NoditSet.cut, bind, Except.bind, pure, Except.pure, Except.map]
    cases s.inner.cut q <;> rfl
  | removeOverlapping q =>
    simp only [stepCall, NoditMap.step, SetCall.toMap, NoditSet.removeOverlapping, bind, Except.bind, pure, Except.pure, Except.map]
    cases s.inner.removeOverlapping q <;> rfl
  | overlapping q =>
    simp only [stepCall, NoditMap.step, SetCall.toMap, NoditSet.overlapping, bind, Except.bind, pure, Except.pure, Except.map]
    cases s.inner.overlapping q <;> rfl
  | overlaps q =>
    simp only [stepCall, NoditMap.step, SetCall.toMap, NoditSet.overlaps, bind, Except.bind, pure, Except.pure, Except.map]
    cases s.inner.overlaps q <;> rfl
  | gapsUntrimmed q =>
    simp only [stepCall, NoditMap.step, SetCall.toMap, NoditSet.gapsUntrimmed, bind, Except.bind, pure, Except.pure, Except.map]
    cases s.inner.gapsUntrimmed q <;> rfl
  | gapsTrimmed q =>
    simp only [stepCall, NoditMap.step, SetCall.toMap, NoditSet.gapsTrimmed, bind, Except.bind, pure, Except.pure, Except.map]
    cases s.inner.gapsTrimmed q <;> rfl
  | containsInterval q =>
    simp only [stepCall, NoditMap.step, SetCall.toMap, NoditSet.containsInterval, bind, Except.bind, pure, Except.pure, Except.map]
    cases s.inner.containsInterval q <;> rfl
  | getAtPoint p =>
    simp only [stepCall, NoditMap.step, SetCall.toMap, NoditSet.getAtPoint, bind, Except.bind, pure, Except.pure]
    cases s.inner.getKeyValueAtPoint p <;> rfl
  | containsPoint p =>
    simp only [stepCall, NoditMap.step, SetCall.toMap, NoditSet.containsPoint, bind, Except.bind, pure, Except.pure, Except.map]
    cases s.inner.containsPoint p <;> rfl
  | iter | len | isEmpty | first | last => rfl

omit [LawfulPoint I] [LawfulInterval I K] in
/-- a history of the set is the history of the map below it, with the results projected -/
theorem runCalls_eq (ops : List (SetCall I K)) (s : NoditSet K) :
    s.runCalls ops = (⟨(s.inner.run (ops.map SetCall.toMap)).1⟩,
      (s.inner.run (ops.map SetCall.toMap)).2.map (fun o => o.map SetOut.ofMap)) := by
  induction ops generalizing s with
  | nil => rfl
  | cons op ops ih =>
    simp only [runCalls, List.map_cons, NoditMap.run, stepCall_eq]
    cases s.inner.step op.toMap with
    | error p => simp [Except.map, ih]
    | ok r => simp [Except.map, ih]

omit [LawfulPoint I] [LawfulInterval I K] in
theorem bad_toMap (op : SetCall I K) : op.toMap.Bad ↔ op.Bad := by cases op <;> rfl

/-- the intervals of a set of entries without values -/
def keysOf (S : Set (K × Unit)) : Set K := {k | (k, ()) ∈ S}

omit [LawfulPoint I] [LawfulInterval I K] in
theorem mem_keysOf {S : Set (K × Unit)} {k : K} : k ∈ keysOf S ↔ (k, ()) ∈ S := Iff.rfl

omit [LawfulPoint I] [LawfulInterval I K] in
theorem ex_entry {S : Set (K × Unit)} {P : K → Prop} : (∃ e ∈ S, P e.1) ↔ ∃ k ∈ keysOf S, P k :=
  ⟨fun ⟨e, he, h⟩ => ⟨e.1, he, h⟩, fun ⟨k, hk, h⟩ => ⟨(k, ()), hk, h⟩⟩

omit [LawfulPoint I] [LawfulInterval I K] in
theorem all_entry {S : Set (K × Unit)} {P : K → Prop} : (∀ e ∈ S, P e.1) ↔ ∀ k ∈ keysOf S, P k :=
  ⟨fun h k hk => h (k, ()) hk, fun h e he => h e.1 he⟩

omit [LawfulPoint I] [LawfulInterval I K] in
theorem covered_keysOf {S : Set (K × Unit)} {p : I} : Covered S p ↔ InSome (keysOf S) p :=
  ex_entry (P := fun k => Mem p k)

omit [LawfulPoint I] [LawfulInterval I K] in
theorem lists_keysOf {l : List (K × Unit)} {S : Set (K × Unit)} (h : Lists l S) : ListsSet (l.map Prod.fst) (keysOf S) :=
  ⟨wf_iff.1 h.1, fun k => by rw [mem_fst, h.2]; rfl⟩

omit [LawfulPoint I] [LawfulInterval I K] in
theorem keysOf_sep {S : Set (K × Unit)} {P : K → Prop} : keysOf {e | e ∈ S ∧ P e.1} = {k | k ∈ keysOf S ∧ P k} := rfl

omit [LawfulPoint I] [LawfulInterval I K] in
theorem keysOf_add {S : Set (K × Unit)} {k : K} : keysOf (S ∪ {(k, ())}) = keysOf S ∪ {k} := by
  ext j; simp [keysOf]

omit [LawfulPoint I] [LawfulInterval I K] in
theorem cutRemaining_keysOf {A : Type} [IntervalType I A] {S : Set (K × Unit)} {q : A} :
    keysOf (CutRemaining S q) = SetCutRemaining (keysOf S) q := by
  ext k
  simp only [keysOf, CutRemaining, SetCutRemaining, Set.mem_ofPred_eq, Prod.mk.injEq, and_true, Prod.exists, exists_const]
  refine or_congr Iff.rfl ⟨?_, ?_⟩
  · rintro ⟨f, ⟨⟩, hf, ho, i, hk, h⟩; exact ⟨f, hf, ho, i, hk, h⟩
  · rintro ⟨f, hf, ho, i, hk, h⟩; exact ⟨f, (), hf, ho, i, hk, h⟩

omit [LawfulPoint I] [LawfulInterval I K] in
theorem cutReturned_keysOf {A : Type} [IntervalType I A] {S : Set (K × Unit)} {q : A} :
    keysOf (CutReturned S q) = SetCutReturned (keysOf S) q := by
  ext k
  simp only [keysOf, CutReturned, SetCutReturned, Set.mem_ofPred_eq, Prod.exists, Prod.mk.injEq]
  constructor
  · rintro ⟨f, ⟨⟩, hf, i, hk, h⟩; exact ⟨f, hf, i, hk.1, h⟩
  · rintro ⟨f, hf, i, hk, h⟩; exact ⟨f, (), hf, i, ⟨hk, trivial⟩, h⟩

omit [LawfulPoint I] [LawfulInterval I K] in
theorem mergedKey_keysOf {k : K} {T : Set (K × Unit)} {r : K} (h : MergedKey k T r) : MergedSet k (keysOf T) r :=
  ⟨fun p => (h.1 p).trans (or_congr Iff.rfl (ex_entry (P := fun k => Mem p k))),
    fun h' => h.2.1 ((all_entry (P := fun t => StrictlyInside t k)).2 h'),
    fun h' => h.2.2 ((ex_entry (P := fun t => ¬ StrictlyInside t k)).2 h')⟩

omit [LawfulPoint I] [LawfulInterval I K] in
/-- the reference machine of entries without values is the reference machine of sets -/
theorem setSpecOp_of {S S' : Set (K × Unit)} {op : SetCall I K} {o : Out K Unit} (h : SpecOp S op.toMap S' o) :
    SetSpecOp (keysOf S) op (keysOf S') (SetOut.ofMap o) := by
  have hcov : (fun p : I => ¬ Covered S p) = fun p => ¬ InSome (keysOf S) p := by
    funext p; rw [covered_keysOf]
  cases op with
  | insertStrict k =>
    refine ⟨fun hc => ?_, fun hc => ?_⟩
    · obtain ⟨rfl, rfl⟩ := h.1 ((ex_entry (P := fun j => Overlap j k)).2 hc); exact ⟨rfl, rfl⟩
    · obtain ⟨rfl, rfl⟩ := h.2 (fun h' => hc ((ex_entry (P := fun j => Overlap j k)).1 h')); exact ⟨keysOf_add, rfl⟩
  | insertMergeTouching k =>
    refine ⟨fun hc => ?_, fun hc => ?_⟩
    · obtain ⟨rfl, rfl⟩ := h.1 ((ex_entry (P := fun j => Overlap j k)).2 hc); exact ⟨rfl, rfl⟩
    · obtain ⟨r, hr, rfl, rfl⟩ := h.2 (fun h' => hc ((ex_entry (P := fun j => Overlap j k)).1 h'))
      exact ⟨r, mergedKey_keysOf hr, keysOf_add, rfl⟩
  | insertMergeOverlapping k | insertMergeTouchingOrOverlapping k =>
    obtain ⟨r, hr, rfl, rfl⟩ := h
    exact ⟨r, mergedKey_keysOf hr, keysOf_add, rfl⟩
  | insertOverwrite k =>
    obtain ⟨l, hl, rfl, rfl⟩ := h
    exact ⟨_, cutReturned_keysOf (S := S) (q := k) ▸ lists_keysOf hl, by rw [keysOf_add, cutRemaining_keysOf], rfl⟩
  | cut q =>
    obtain ⟨l, hl, rfl, rfl⟩ := h
    exact ⟨_, cutReturned_keysOf (S := S) (q := q) ▸ lists_keysOf hl, cutRemaining_keysOf, rfl⟩
  | removeOverlapping q | overlapping q =>
    obtain ⟨l, hl, rfl, rfl⟩ := h
    exact ⟨_, lists_keysOf hl, rfl, rfl⟩
  | overlaps q =>
    obtain ⟨b, hb, rfl, rfl⟩ := h
    exact ⟨b, hb.trans (ex_entry (P := fun j => Overlap j q)), rfl, rfl⟩
  | gapsUntrimmed q | gapsTrimmed q =>
    obtain ⟨l, hl, rfl, rfl⟩ := h
    rw [hcov] at hl
    exact ⟨l, hl, rfl, rfl⟩
  | containsInterval q =>
    obtain ⟨b, hb, rfl, rfl⟩ := h
    exact ⟨b, hb.trans (forall_congr' fun p => imp_congr_right fun _ => covered_keysOf), rfl, rfl⟩
  | getAtPoint p =>
    obtain ⟨r, h1, h2, rfl, rfl⟩ := h
    rw [hcov] at h2
    refine ⟨_, fun k => ?_, fun g hg => ?_, rfl, rfl⟩
    · rw [mem_keysOf, ← h1 (k, ())]
      cases r with
      | error g => simp [Except.map]
      | ok e => obtain ⟨j, ⟨⟩⟩ := e; simp [Except.map]
    · cases r with
      | error g' => simp only [Except.map, Except.error.injEq] at hg; exact h2 g (by rw [hg])
      | ok e => cases hg
  | containsPoint p =>
    obtain ⟨b, hb, rfl, rfl⟩ := h
    exact ⟨b, hb.trans covered_keysOf, rfl, rfl⟩
  | iter =>
    obtain ⟨l, hl, rfl, rfl⟩ := h
    exact ⟨_, lists_keysOf hl, rfl, rfl⟩
  | len =>
    obtain ⟨l, hl, rfl, rfl⟩ := h
    exact ⟨_, lists_keysOf hl, rfl, by simp [SetOut.ofMap]⟩
  | isEmpty =>
    obtain ⟨b, hb, rfl, rfl⟩ := h
    exact ⟨b, hb.trans ⟨fun h k hk => h _ hk, fun h e he => h e.1 he⟩, rfl, rfl⟩
  | first =>
    obtain ⟨r, hr, rfl, rfl⟩ := h
    refine ⟨_, fun k => ?_, rfl, rfl⟩
    have : (r.map Prod.fst = some k) ↔ r = some (k, ()) := by
      cases r with
      | none => simp
      | some e => obtain ⟨j, ⟨⟩⟩ := e; simp
    rw [this, hr, mem_keysOf]
    refine and_congr_right fun _ => ⟨fun hh j hj hne => hh (j, ()) hj (fun heq => hne (congrArg Prod.fst heq)), fun hh d hd hne => hh d.1 hd (fun heq => hne (Prod.ext heq rfl))⟩
  | last =>
    obtain ⟨r, hr, rfl, rfl⟩ := h
    refine ⟨_, fun k => ?_, rfl, rfl⟩
    have : (r.map Prod.fst = some k) ↔ r = some (k, ()) := by
      cases r with
      | none => simp
      | some e => obtain ⟨j, ⟨⟩⟩ := e; simp
    rw [this, hr, mem_keysOf]
    refine and_congr_right fun _ => ⟨fun hh j hj hne => hh (j, ()) hj (fun heq => hne (congrArg Prod.fst heq)), fun hh d hd hne => hh d.1 hd (fun heq => hne (Prod.ext heq rfl))⟩

omit [LawfulPoint I] [LawfulInterval I K] in
theorem keysOf_entrySet (s : NoditSet K) : keysOf s.inner.entrySet = s.keySet := by
  ext k; exact (mem_iter (s := s)).symm

omit [LawfulPoint I] [LawfulInterval I K] in
theorem setRun_of {S S' : Set (K × Unit)} {ops : List (SetCall I K)} {os : List (Res (Out K Unit))}
    (h : SpecRun S (ops.map SetCall.toMap) S' os) :
    SetSpecRun (keysOf S) ops (keysOf S') (os.map (fun o => o.map SetOut.ofMap)) := by
  induction ops generalizing S os with
  | nil => cases h; exact .nil _
  | cons op ops ih =>
    cases h with
    | cons hs hr =>
      refine .cons ?_ (ih hr)
      rcases hs with ⟨hb, rfl, rfl⟩ | ⟨hb, o, rfl, hs⟩
      · exact Or.inl ⟨(bad_toMap op).1 hb, rfl, rfl⟩
      · exact Or.inr ⟨mt (bad_toMap op).2 hb, _, rfl, setSpecOp_of hs⟩

/-- **C22**: every history of calls - all methods, valid arguments or not - on a fresh `NoditSet` gives, call by call, the
results of a plain set of intervals, and leaves the intervals of that set, valid, ascending and disjoint. -/
theorem C22_set_refines_set_of_intervals (ops : List (SetCall I K)) :
    Ascending ((new : NoditSet K).runCalls ops).1.iter ∧
    SetSpecRun (∅ : Set K) ops ((new : NoditSet K).runCalls ops).1.keySet ((new : NoditSet K).runCalls ops).2 := by
  have h := run_refines (ops.map SetCall.toMap) (wf_new (K := K) (V := Unit) (I := I))
  have he : keysOf (NoditMap.new : NoditMap K Unit).entrySet = ∅ := by
    ext x; simp [keysOf, NoditMap.entrySet, NoditMap.new, NoditMap.iter]
  have hr := setRun_of h.2
  rw [he] at hr
  rw [runCalls_eq]
  refine ⟨wf_iff.1 h.1, ?_⟩
  rw [← keysOf_entrySet]
  exact hr

theorem ListsSet.unique {l l' : List K} {T : Set K} (h : ListsSet l T) (h' : ListsSet l' T) : l = l' :=
  ChainK.ext (ascending_iff.1 h.1) (ascending_iff.1 h'.1) (fun e => (h.2 e).trans (h'.2 e).symm)

theorem MergedSet.unique {k r r' : K} {T : Set K} (hk : Valid k) (h : MergedSet k T r) (h' : MergedSet k T r') : r = r' := by
  have conv : ∀ {r}, MergedSet k T r → MergedKey k {e : K × Unit | e.1 ∈ T} r := fun {r} h =>
    ⟨fun p => (h.1 p).trans (or_congr Iff.rfl (ex_entry (S := {e : K × Unit | e.1 ∈ T}) (P := fun k => Mem p k)).symm),
      fun h' => h.2.1 fun t ht => h' (t, ()) ht, fun ⟨e, he, h'⟩ => h.2.2 ⟨e.1, he, h'⟩⟩
  exact MergedKey.unique hk (conv h) (conv h')

/-- **C22**: the reference machine leaves no freedom - a call's effect and result are determined by the set of intervals. -/
theorem C22_reference_machine_deterministic {S S₁ S₂ : Set K} {op : SetCall I K} {o₁ o₂ : Res (SetOut K)}
    (h₁ : SetSpecStep S op S₁ o₁) (h₂ : SetSpecStep S op S₂ o₂) : S₁ = S₂ ∧ o₁ = o₂ := by
  rcases h₁ with ⟨hb, rfl, rfl⟩ | ⟨hb, o1, rfl, h₁⟩ <;> rcases h₂ with ⟨hb', rfl, rfl⟩ | ⟨hb', o2, rfl, h₂⟩
  · exact ⟨rfl, rfl⟩
  · exact absurd hb hb'
  · exact absurd hb' hb
  · cases op with
    | insertStrict k =>
      by_cases hc : ∃ j ∈ S, Overlap j k
      · obtain ⟨rfl, rfl⟩ := h₁.1 hc; obtain ⟨rfl, rfl⟩ := h₂.1 hc; exact ⟨rfl, rfl⟩
      · obtain ⟨rfl, rfl⟩ := h₁.2 hc; obtain ⟨rfl, rfl⟩ := h₂.2 hc; exact ⟨rfl, rfl⟩
    | insertMergeTouching k =>
      have hk : Valid k := not_not.1 hb
      by_cases hc : ∃ j ∈ S, Overlap j k
      · obtain ⟨rfl, rfl⟩ := h₁.1 hc; obtain ⟨rfl, rfl⟩ := h₂.1 hc; exact ⟨rfl, rfl⟩
      · obtain ⟨r, hr, rfl, rfl⟩ := h₁.2 hc; obtain ⟨r', hr', rfl, rfl⟩ := h₂.2 hc
        cases MergedSet.unique hk hr hr'; exact ⟨rfl, rfl⟩
    | insertMergeOverlapping k | insertMergeTouchingOrOverlapping k =>
      have hk : Valid k := not_not.1 hb
      obtain ⟨r, hr, rfl, rfl⟩ := h₁; obtain ⟨r', hr', rfl, rfl⟩ := h₂
      cases MergedSet.unique hk hr hr'; exact ⟨rfl, rfl⟩
    | insertOverwrite k | cut q | removeOverlapping q | overlapping q | iter | len =>
      obtain ⟨l, hl, rfl, rfl⟩ := h₁; obtain ⟨l', hl', rfl, rfl⟩ := h₂
      cases ListsSet.unique hl hl'; exact ⟨rfl, rfl⟩
    | overlaps q | containsInterval q | containsPoint p | isEmpty =>
      obtain ⟨b, hl, rfl, rfl⟩ := h₁; obtain ⟨b', hl', rfl, rfl⟩ := h₂
      cases bool_unique hl hl'; exact ⟨rfl, rfl⟩
    | gapsUntrimmed q | gapsTrimmed q =>
      obtain ⟨l, hl, rfl, rfl⟩ := h₁; obtain ⟨l', hl', rfl, rfl⟩ := h₂
      cases ListsIntervals.unique hl hl'; exact ⟨rfl, rfl⟩
    | first | last =>
      obtain ⟨l, hl, rfl, rfl⟩ := h₁; obtain ⟨l', hl', rfl, rfl⟩ := h₂
      cases option_unique hl hl'; exact ⟨rfl, rfl⟩
    | getAtPoint p =>
      obtain ⟨r, hr, hg, rfl, rfl⟩ := h₁; obtain ⟨r', hr', hg', rfl, rfl⟩ := h₂
      refine ⟨rfl, ?_⟩
      cases r with
      | ok e => rw [(hr' e).2 ((hr e).1 rfl)]
      | error g =>
        cases r' with
        | ok e => have := (hr e).2 ((hr' e).1 rfl); cases this
        | error g' =>
          obtain ⟨i, rfl, hi, hpi⟩ := hg g rfl
          obtain ⟨j, rfl, hj, hpj⟩ := hg' g' rfl
          rw [MaximalRun.unique hi hj hpi hpj]

/-- **C22**: so a whole history of the reference machine has one outcome, the model's. -/
theorem C22_reference_history_unique {ops : List (SetCall I K)} {S' : Set K} {os : List (Res (SetOut K))}
    (h : SetSpecRun (∅ : Set K) ops S' os) :
    S' = ((new : NoditSet K).runCalls ops).1.keySet ∧ os = ((new : NoditSet K).runCalls ops).2 := by
  have hdet : ∀ {ops : List (SetCall I K)} {S S₁ S₂ : Set K} {o₁ o₂ : List (Res (SetOut K))},
      SetSpecRun S ops S₁ o₁ → SetSpecRun S ops S₂ o₂ → S₁ = S₂ ∧ o₁ = o₂ := by
    intro ops S S₁ S₂ o₁ o₂ h₁
    induction h₁ generalizing S₂ o₂ with
    | nil S => intro h₂; cases h₂; exact ⟨rfl, rfl⟩
    | cons hs hr ih =>
      intro h₂
      cases h₂ with
      | cons hs' hr' =>
        obtain ⟨rfl, rfl⟩ := C22_reference_machine_deterministic hs hs'
        obtain ⟨rfl, rfl⟩ := ih hr'
        exact ⟨rfl, rfl⟩
  exact hdet h (C22_set_refines_set_of_intervals ops).2

/-! ## C93 for sets -/

/-- The interval a call works on, if it works on one (as `Op.arg`). -/
def Spec.SetCall.arg : SetCall I K → Option (Interval I)
  | .insertStrict k | .insertMergeTouching k | .insertMergeOverlapping k | .insertMergeTouchingOrOverlapping k
  | .insertOverwrite k => some ⟨start k, stop k⟩
  | .cut q | .removeOverlapping q | .overlapping q | .overlaps q | .gapsTrimmed q | .containsInterval q => some q
  | .containsPoint p => some ⟨p, p⟩
  | _ => none

/-- the call works on an interval within `a` -/
def Spec.SetCall.Within (op : SetCall I K) (a : Interval I) : Prop := ∃ i, op.arg = some i ∧ ∀ p, Mem p i → Mem p a

theorem arg_toMap (op : SetCall I K) : op.toMap.arg = op.arg := by cases op <;> rfl

theorem own_map {ι α β : Type} [DecidableEq ι] (c : ι) (f : α → β) (l : List (ι × α)) :
    own c (l.map (fun x => (x.1, f x.2))) = (own c l).map f := by
  induction l with
  | nil => rfl
  | cons x l ih =>
    simp only [own, List.map_cons, List.filterMap_cons] at ih ⊢
    by_cases h : x.1 = c
    · simp [h, ih]
    · simp [h, ih]

theorem toMap_sched {ι : Type} (sched : List (ι × SetCall I K)) :
    (sched.map Prod.snd).map SetCall.toMap = (sched.map (fun x => (x.1, x.2.toMap))).map Prod.snd := by simp

/-- **C93**, for sets: clients with separate regions of one `NoditSet` get, under every schedule of their calls, exactly the
results they would get if the other clients did not exist. -/
theorem C93_set_clients_do_not_observe_each_other {ι : Type} [DecidableEq ι] {s : NoditSet K} (h : Ascending s.iter)
    (region : ι → Interval I) (hv : ∀ c, Valid (region c)) (hsep : ∀ c d, c ≠ d → ¬ Near (region c) (region d))
    (hm : ∀ k ∈ s.iter, ∀ c d, Near k (region c) → Near k (region d) → c = d)
    (sched : List (ι × SetCall I K)) (hw : ∀ x ∈ sched, x.2.Within (region x.1)) (c : ι) :
    own c ((sched.map Prod.fst).zip (s.runCalls (sched.map Prod.snd)).2) = (s.runCalls (own c sched)).2 := by
  have key := C93_clients_do_not_observe_each_other (m := s.inner) (wf_iff.2 h) region hv hsep
    (fun e he => hm e.1 (mem_iter.2 he)) (sched.map (fun x => (x.1, x.2.toMap))) ?_ c
  · rw [runCalls_eq, runCalls_eq, toMap_sched, ← own_map, ← key, ← own_map]
    simp only [List.map_map, Function.comp_def]
    congr 1
    rw [List.zip_map_right]
    exact List.map_congr_left fun x _ => rfl
  · intro x hx
    obtain ⟨y, hy, rfl⟩ := List.mem_map.1 hx
    obtain ⟨i, hi, hp⟩ := hw y hy
    exact ⟨i, by rw [arg_toMap]; exact hi, hp⟩

/-- **C93**, for sets: and the set the clients leave behind is the same for all schedules. -/
theorem C93_set_all_schedules_agree {ι : Type} [DecidableEq ι] {s : NoditSet K} (h : Ascending s.iter)
    (region : ι → Interval I) (hv : ∀ c, Valid (region c)) (hsep : ∀ c d, c ≠ d → ¬ Near (region c) (region d))
    (hm : ∀ k ∈ s.iter, ∀ c d, Near k (region c) → Near k (region d) → c = d)
    (sched sched' : List (ι × SetCall I K)) (hw : ∀ x ∈ sched, x.2.Within (region x.1))
    (hw' : ∀ x ∈ sched', x.2.Within (region x.1)) (heq : ∀ c, own c sched = own c sched') :
    (s.runCalls (sched.map Prod.snd)).1 = (s.runCalls (sched'.map Prod.snd)).1 := by
  have conv : ∀ sched : List (ι × SetCall I K), (∀ x ∈ sched, x.2.Within (region x.1)) →
      ∀ x ∈ sched.map (fun x => (x.1, x.2.toMap)), x.2.Within (region x.1) := by
    intro sched hw x hx
    obtain ⟨y, hy, rfl⟩ := List.mem_map.1 hx
    obtain ⟨i, hi, hp⟩ := hw y hy
    exact ⟨i, by rw [arg_toMap]; exact hi, hp⟩
  rw [runCalls_eq, runCalls_eq, toMap_sched, toMap_sched,
    C93_all_schedules_agree (m := s.inner) (wf_iff.2 h) region hv hsep (fun e he => hm e.1 (mem_iter.2 he)) _ _
      (conv sched hw) (conv sched' hw') (fun c => by rw [own_map, own_map, heq])]

/-- the call joins what it inserts with intervals that touch it -/
def Spec.SetCall.Joins : SetCall I K → Prop
  | .insertMergeTouching _ | .insertMergeTouchingOrOverlapping _ => True
  | _ => False

theorem joins_toMap (op : SetCall I K) : op.toMap.Joins ↔ op.Joins := by cases op <;> exact Iff.rfl

/-- **C93**, for sets: if no client uses the inserts that join touching intervals, it is enough that the regions share no point
and no interval of the set overlaps two of them; they may touch. -/
theorem C93_set_touching_regions {ι : Type} [DecidableEq ι] {s : NoditSet K} (h : Ascending s.iter)
    (region : ι → Interval I) (hv : ∀ c, Valid (region c)) (hsep : ∀ c d, c ≠ d → ¬ Overlap (region c) (region d))
    (hm : ∀ k ∈ s.iter, ∀ c d, Overlap k (region c) → Overlap k (region d) → c = d)
    (sched sched' : List (ι × SetCall I K)) (hw : ∀ x ∈ sched, x.2.Within (region x.1))
    (hw' : ∀ x ∈ sched', x.2.Within (region x.1)) (hj : ∀ x ∈ sched, ¬ x.2.Joins) (heq : ∀ c, own c sched = own c sched') :
    (∀ c, own c ((sched.map Prod.fst).zip (s.runCalls (sched.map Prod.snd)).2) = (s.runCalls (own c sched)).2) ∧
    (s.runCalls (sched.map Prod.snd)).1 = (s.runCalls (sched'.map Prod.snd)).1 := by
  have conv : ∀ sched : List (ι × SetCall I K), (∀ x ∈ sched, x.2.Within (region x.1)) →
      ∀ x ∈ sched.map (fun x => (x.1, x.2.toMap)), x.2.Within (region x.1) := by
    intro sched hw x hx
    obtain ⟨y, hy, rfl⟩ := List.mem_map.1 hx
    obtain ⟨i, hi, hp⟩ := hw y hy
    exact ⟨i, by rw [arg_toMap]; exact hi, hp⟩
  obtain ⟨h1, h2⟩ := C93_touching_regions (m := s.inner) (wf_iff.2 h) region hv hsep (fun e he => hm e.1 (mem_iter.2 he)) _ _
    (conv sched hw) (conv sched' hw') (fun x hx => by
      obtain ⟨y, hy, rfl⟩ := List.mem_map.1 hx
      exact fun hjo => hj y hy ((joins_toMap y.2).1 hjo)) (fun c => by rw [own_map, own_map, heq])
  constructor
  · intro c
    have key := h1 c
    rw [runCalls_eq, runCalls_eq, toMap_sched, ← own_map, ← key, ← own_map]
    simp only [List.map_map, Function.comp_def]
    congr 1
    rw [List.zip_map_right]
    exact List.map_congr_left fun x _ => rfl
  · rw [runCalls_eq, runCalls_eq, toMap_sched, toMap_sched, h2]

/-! ## C78 for sets -/

theorem setLosesOnly_of {S S' : Set (K × Unit)} {P : K → Prop} (h : LosesOnly S S' (fun e => P e.1)) :
    SetLosesOnly (keysOf S) (keysOf S') P :=
  ⟨fun _ hk => h.1 hk, fun k hk hn => h.2 (k, ()) hk hn⟩

theorem setPartlyCut_of {A : Type} [IntervalType I A] {S S' : Set (K × Unit)} {q : A} (h : PartlyCut S S' q) :
    SetPartlyCut (keysOf S) (keysOf S') q := by
  obtain ⟨done, doing, part, hp, h1, h2, rfl⟩ := h
  refine ⟨keysOf done, keysOf doing, keysOf part, ?_, fun k hk => h1 (k, ()) hk, fun k hk j hj => ?_, ?_⟩
  · rw [← cutRemaining_keysOf]; exact fun k hk => hp hk
  · exact congrArg Prod.fst (h2 (k, ()) hk (j, ()) hj)
  · rw [← cutRemaining_keysOf]; rfl

theorem setCrashLeaves_of {S S' : Set (K × Unit)} {op : SetCall I K} (h : CrashLeaves S op.toMap S') :
    SetCrashLeaves (keysOf S) op (keysOf S') := by
  cases op with
  | insertMergeTouching k =>
    have := setLosesOnly_of (P := fun j => Touch j k ∧ ¬ ∃ d ∈ S, Overlap d.1 k) h
    refine ⟨this.1, fun j hj hn => ⟨(this.2 j hj hn).1, fun ⟨d, hd, ho⟩ => (this.2 j hj hn).2 ⟨(d, ()), hd, ho⟩⟩⟩
  | insertMergeOverlapping k | insertMergeTouchingOrOverlapping k | removeOverlapping q => exact setLosesOnly_of h
  | insertOverwrite k | cut q => exact setPartlyCut_of h
  | insertStrict k | overlapping q | overlaps q | gapsUntrimmed q | gapsTrimmed q | containsInterval q | getAtPoint p
  | containsPoint p | iter | len | isEmpty | first | last => cases h; rfl

theorem setRun_eq (ops : List (SetCall I K × Option Nat)) (s : NoditSet K) :
    Crash.setRun s ops = (⟨(Crash.run s.inner (ops.map (fun x => (x.1.toMap, x.2)))).1⟩,
      (Crash.run s.inner (ops.map (fun x => (x.1.toMap, x.2)))).2.map (fun o => o.map SetOut.ofMap)) := by
  induction ops generalizing s with
  | nil => rfl
  | cons x ops ih => simp only [Crash.setRun, Crash.run, Crash.setStep, List.map_cons, ih]

theorem setCrashRun_of {S S' : Set (K × Unit)} {ops : List (SetCall I K)} {os : List (Except Crash.Stop (Out K Unit))}
    (h : CrashRun S (ops.map SetCall.toMap) S' os) :
    SetCrashRun (keysOf S) ops (keysOf S') (os.map (fun o => o.map SetOut.ofMap)) := by
  induction ops generalizing S os with
  | nil => cases h; exact .nil _
  | cons op ops ih =>
    cases h with
    | @cons _ S1 _ _ _ o os hs hr =>
      refine .cons ?_ (ih hr)
      cases o with
      | ok o =>
        rcases hs with ⟨-, -, h⟩ | ⟨hb, o', h, hs⟩
        · cases h
        · cases h; exact Or.inr ⟨mt (bad_toMap op).2 hb, _, rfl, setSpecOp_of hs⟩
      | error e =>
        cases e with
        | user => exact setCrashLeaves_of hs
        | crate p =>
          rcases hs with ⟨hb, rfl, h⟩ | ⟨hb, o', h, hs⟩
          · cases h; exact Or.inl ⟨(bad_toMap op).1 hb, rfl, rfl⟩
          · cases h

/-- **C78**, for sets: undisturbed, the imperative transcription of a call is the call. -/
theorem C78_set_undisturbed {s : NoditSet K} (h : Ascending s.iter) (op : SetCall I K) :
    (∀ s' o, s.stepCall op = .ok (s', o) → (Crash.setStep op s none).1 = .ok o ∧ (Crash.setStep op s none).2.1 = s') ∧
    (∀ p, s.stepCall op = .error p → (Crash.setStep op s none).1 = .error (.crate p) ∧ (Crash.setStep op s none).2.1 = s) := by
  have hu := C78_undisturbed (wf_iff.2 h) op.toMap
  rw [stepCall_eq]
  cases hs : s.inner.step op.toMap with
  | error p =>
    refine ⟨fun _ _ h => (nomatch h), ?_⟩
    rintro p' ⟨⟩
    obtain ⟨h1, h2⟩ := hu.2 p hs
    exact ⟨by simp only [Crash.setStep, h1]; rfl, by simp only [Crash.setStep, h2]⟩
  | ok r =>
    refine ⟨?_, fun _ h => (nomatch h)⟩
    rintro s' o ⟨⟩
    obtain ⟨h1, h2⟩ := hu.1 r.1 r.2 hs
    exact ⟨by simp only [Crash.setStep, h1]; rfl, by simp only [Crash.setStep, h2]⟩

/-- **C78**, for sets: whatever calls are made on a fresh `NoditSet` and wherever user code panics in them, the intervals
stay valid, ascending and disjoint; every call that returns does what it should to the set it found; a call in which user code
panicked leaves what `SetCrashLeaves` says. -/
theorem C78_set_history (ops : List (SetCall I K × Option Nat)) :
    Ascending (Crash.setRun (new : NoditSet K) ops).1.iter ∧
    SetCrashRun (∅ : Set K) (ops.map Prod.fst) (Crash.setRun (new : NoditSet K) ops).1.keySet
      (Crash.setRun (new : NoditSet K) ops).2 := by
  have h := C78_history (V := Unit) (ops.map (fun x => (x.1.toMap, x.2)))
  have he : keysOf (∅ : Set (K × Unit)) = ∅ := rfl
  have hm : (ops.map (fun x => (x.1.toMap, x.2))).map Prod.fst = (ops.map Prod.fst).map SetCall.toMap := by simp
  rw [hm] at h
  have hr := setCrashRun_of h.2
  rw [he] at hr
  rw [setRun_eq]
  refine ⟨wf_iff.1 h.1, ?_⟩
  rw [← keysOf_entrySet]
  exact hr

/-! ## Instances -/

/-- a history of a set with all kinds of results, an invalid interval included -/
def Demo.setCalls : List (SetCall Demo.U8 (Interval Demo.U8)) :=
  [.insertStrict (Demo.iv 10 20), .insertMergeTouching (Demo.iv 21 22), .insertStrict (Demo.iv 5 10), .insertStrict (Demo.iv 200 255),
   .cut (Demo.iv 15 16), .cut (Demo.iv 9 3), .getAtPoint (Demo.u8 15), .getAtPoint (Demo.u8 255),
   .insertMergeOverlapping (Demo.iv 20 30), .gapsTrimmed (Demo.iv 0 40), .len, .first, .last, .iter, .isEmpty]

example : ((new : NoditSet (Interval Demo.U8)).runCalls Demo.setCalls).2 =
    [.ok (.strict (.ok ())), .ok (.merge (.ok (Demo.iv 10 22))), .ok (.strict (.error ())), .ok (.strict (.ok ())),
     .ok (.keys [Demo.iv 15 16]), .error .invalidInterval, .ok (.lookup (.error (Demo.iv 15 16))),
     .ok (.lookup (.ok (Demo.iv 200 255))), .ok (.key (Demo.iv 17 30)),
     .ok (.keys [Demo.iv 0 9, Demo.iv 15 16, Demo.iv 31 40]), .ok (.nat 3), .ok (.optKey (some (Demo.iv 10 14))),
     .ok (.optKey (some (Demo.iv 200 255))), .ok (.keys [Demo.iv 10 14, Demo.iv 17 30, Demo.iv 200 255]), .ok (.bool false)] := by
  rfl

/-- a set with an interval on each side, and the two clients of `Demo.region` -/
def Demo.setSched : List (Bool × SetCall Demo.U8 (Interval Demo.U8)) :=
  [(false, .cut (Demo.iv 1 11)), (true, .insertMergeTouching (Demo.iv 240 249)), (false, .gapsTrimmed (Demo.iv 0 30)),
   (true, .cut (Demo.iv 9 5)), (false, .insertMergeTouchingOrOverlapping (Demo.iv 21 30)), (true, .containsPoint (Demo.u8 255))]

/-- the intervals of the demo map as a set -/
def Demo.s : NoditSet (Interval Demo.U8) := ⟨⟨Demo.m.inner.map (fun e => (e.1, ()))⟩⟩

theorem Demo.s_iter : Demo.s.iter = Demo.m.iter.map Prod.fst := by decide

theorem Demo.s_ascending : Ascending Demo.s.iter := by
  have h := C01_invariant (I := Demo.U8) Demo.ops
  rw [Demo.s_iter]
  refine ⟨fun k hk => ?_, List.pairwise_map.2 h.2⟩
  obtain ⟨e, he, rfl⟩ := List.mem_map.1 hk
  exact h.1 e he

theorem Demo.setSched_within : ∀ x ∈ Demo.setSched, x.2.Within (Demo.region x.1) := by
  have hsub : ∀ (i r : Interval Demo.U8), (start r ≤ start i ∧ stop i ≤ stop r) ∨ stop i < start i → ∀ p, Mem p i → Mem p r := by
    rintro i r (h | h) p hp
    · exact ⟨le_trans h.1 hp.1, le_trans hp.2 h.2⟩
    · exact absurd (le_trans hp.1 hp.2) (not_le.2 h)
  intro x hx
  simp only [Demo.setSched, List.mem_cons, List.not_mem_nil, or_false] at hx
  rcases hx with rfl | rfl | rfl | rfl | rfl | rfl <;> exact ⟨_, rfl, hsub _ _ (by decide)⟩

/-- client `false`, in the schedule and alone -/
example : own false ((Demo.setSched.map Prod.fst).zip (Demo.s.runCalls (Demo.setSched.map Prod.snd)).2) =
    (Demo.s.runCalls [.cut (Demo.iv 1 11), .gapsTrimmed (Demo.iv 0 30), .insertMergeTouchingOrOverlapping (Demo.iv 21 30)]).2 :=
  C93_set_clients_do_not_observe_each_other Demo.s_ascending Demo.region Demo.region_valid Demo.regions_apart
    (fun k hk => by
      rw [Demo.s_iter] at hk
      obtain ⟨e, he, rfl⟩ := List.mem_map.1 hk
      exact Demo.entries_apart e he) Demo.setSched Demo.setSched_within false

example : (Demo.s.runCalls [.cut (Demo.iv 1 11), .gapsTrimmed (Demo.iv 0 30), .insertMergeTouchingOrOverlapping (Demo.iv 21 30)]).2 =
    [.ok (.keys [Demo.iv 1 1, Demo.iv 3 4, Demo.iv 10 11]), .ok (.keys [Demo.iv 1 11, Demo.iv 21 30]),
     .ok (.key (Demo.iv 16 30))] := rfl

/-- the clients of `Demo.touching`, whose regions touch -/
def Demo.setTouchSched : List (Bool × SetCall Demo.U8 (Interval Demo.U8)) :=
  [(false, .insertStrict (Demo.iv 40 49)), (true, .insertStrict (Demo.iv 50 60)), (false, .insertMergeOverlapping (Demo.iv 30 41)),
   (true, .gapsTrimmed (Demo.iv 50 255)), (true, .insertOverwrite (Demo.iv 50 50)), (false, .cut (Demo.iv 49 49))]

example : own true ((Demo.setTouchSched.map Prod.fst).zip (Demo.s.runCalls (Demo.setTouchSched.map Prod.snd)).2) =
    (Demo.s.runCalls [.insertStrict (Demo.iv 50 60), .gapsTrimmed (Demo.iv 50 255), .insertOverwrite (Demo.iv 50 50)]).2 := by
  have hsub : ∀ (i r : Interval Demo.U8), start r ≤ start i ∧ stop i ≤ stop r → ∀ p, Mem p i → Mem p r :=
    fun i r h p hp => ⟨le_trans h.1 hp.1, le_trans hp.2 h.2⟩
  have hw : ∀ x ∈ Demo.setTouchSched, x.2.Within (Demo.touching x.1) := by
    intro x hx
    simp only [Demo.setTouchSched, List.mem_cons, List.not_mem_nil, or_false] at hx
    rcases hx with rfl | rfl | rfl | rfl | rfl | rfl <;> exact ⟨_, rfl, hsub _ _ (by decide)⟩
  refine (C93_set_touching_regions Demo.s_ascending Demo.touching Demo.touching_valid Demo.touching_disjoint (fun k hk => ?_)
    Demo.setTouchSched Demo.setTouchSched hw hw ?_ (fun _ => rfl)).1 true
  · rw [Demo.s_iter] at hk
    obtain ⟨e, he, rfl⟩ := List.mem_map.1 hk
    exact Demo.touch_entries e he
  · intro x hx
    simp only [Demo.setTouchSched, List.mem_cons, List.not_mem_nil, or_false] at hx
    rcases hx with rfl | rfl | rfl | rfl | rfl | rfl <;> exact id

/-- a `cut` interrupted in the middle: the interval `10..=12` has been taken out and only its lower part put back -/
example : (Crash.setRun (new : NoditSet (Interval Demo.U8)) [(.insertStrict (Demo.iv 10 12), none), (.cut (Demo.iv 11 11), some 5), (.iter, none)]).2
    = [.ok (.strict (.ok ())), .error .user, .ok (.keys [Demo.iv 10 10])] := rfl
end Nodit
