import Verif.Props.SerdeProps
import Verif.CrashGq
/-!
# C125: snapshot and log

A client makes a container durable: every changing call is first appended to a log and then made; from time to time the client writes a
snapshot (serialises the container) and starts a new log; after a crash it deserialises the last snapshot and repeats the calls of the
log. The medium keeps what was written to it; crashes come anywhere, also during recovery.
-/
set_option linter.unusedSectionVars false
namespace Nodit.Durable
open Spec PointType

/-- What happens: a call, logged and made; a checkpoint; a crash (and recovery) between calls; a crash while a call is being logged, so
that nothing of it is in the log; a crash after a call was logged and before it was made or its result delivered.
A client, models no lines of `/repo`. -/
inductive Event (O : Type) where
  | call (op : O)
  | checkpoint
  | crash
  | crashBeforeLogged (op : O)
  | crashAfterLogged (op : O)

/-- The calls of a history which were logged. A specification, models no lines of `/repo`. -/
def logged {O : Type} : List (Event O) → List O
  | [] => []
  | .call op :: es | .crashAfterLogged op :: es => op :: logged es
  | .checkpoint :: es | .crash :: es | .crashBeforeLogged _ :: es => logged es

/-- The medium and the container in memory. A client, models no lines of `/repo`. -/
structure Sys (C X O : Type) where
  snapshot : List X
  log : List O
  mem : C

section
variable {C X O : Type} (apply : C → O → C) (save : C → List X) (load : List (Except Unit X) → Res (Except (DeError Unit) C))

/-- Recovery: deserialise the snapshot, repeat the calls of the log. A client, models no lines of `/repo`. -/
def recover (s : Sys C X O) : Res (Except (DeError Unit) (Sys C X O)) := do
  match ← load (s.snapshot.map .ok) with
  | .ok c => pure (.ok { s with mem := s.log.foldl apply c })
  | .error e => pure (.error e)

/-- The client, for a container with calls `apply` (a call that panics leaves the container as it was), serialised to the elements
`save` and deserialised by `load`. A client, models no lines of `/repo`. -/
def run (s : Sys C X O) : List (Event O) → Res (Except (DeError Unit) (Sys C X O))
  | [] => pure (.ok s)
  | .call op :: es => run { s with log := s.log ++ [op], mem := apply s.mem op } es
  | .checkpoint :: es => run { s with snapshot := save s.mem, log := [] } es
  | .crash :: es | .crashBeforeLogged _ :: es => do
    match ← recover apply load s with
    | .ok s => run s es
    | .error e => pure (.error e)
  | .crashAfterLogged op :: es => do
    match ← recover apply load { s with log := s.log ++ [op] } with
    | .ok s => run s es
    | .error e => pure (.error e)

/-- `R`: a relation kept by the calls (with `P`) under which what is read back is related to what was written -/
theorem run_related {R : C → C → Prop} {P : O → Prop} (hR : ∀ {a b} op, P op → R a b → R (apply a op) (apply b op))
    (hs : ∀ {a b}, R a b → ∃ a', load ((save a).map .ok) = .ok (.ok a') ∧ R a' b) {ref : C} {s : Sys C X O}
    (hm : R s.mem ref) (hl : ∀ op ∈ s.log, P op)
    (hd : ∃ c ref', load (s.snapshot.map .ok) = .ok (.ok c) ∧ R c ref' ∧ s.log.foldl apply ref' = ref)
    (es : List (Event O)) (hP : ∀ op ∈ logged es, P op) :
    ∃ s', run apply save load s es = .ok (.ok s') ∧ R s'.mem ((logged es).foldl apply ref) := by
  have hfold : ∀ (l : List O) {a b : C}, (∀ op ∈ l, P op) → R a b → R (l.foldl apply a) (l.foldl apply b) := by
    intro l
    induction l with
    | nil => exact fun _ h => h
    | cons op l ih => exact fun hp h => ih (fun o ho => hp o (by simp [ho])) (hR op (hp op (by simp)) h)
  induction es generalizing s ref with
  | nil => exact ⟨s, rfl, hm⟩
  | cons e es ih =>
    obtain ⟨c, ref', d1, d2, d3⟩ := hd
    have again : R (s.log.foldl apply c) ref := by rw [← d3]; exact hfold _ hl d2
    cases e with
    | call op =>
      have hl' : ∀ o ∈ s.log ++ [op], P o := by
        intro o ho
        rcases List.mem_append.1 ho with h | h
        · exact hl o h
        · rw [List.mem_singleton.1 h]; exact hP op (by simp [logged])
      exact ih (ref := apply ref op) (s := { s with log := s.log ++ [op], mem := apply s.mem op }) (hR op (hl' op (by simp)) hm) hl'
        ⟨c, ref', d1, d2, by simp [List.foldl_append, d3]⟩ fun o ho => hP o (by simp [logged, ho])
    | checkpoint =>
      obtain ⟨c', e1, e2⟩ := hs hm
      exact ih (s := { s with snapshot := save s.mem, log := [] }) hm (by simp) ⟨c', ref, e1, e2, rfl⟩ hP
    | crash =>
      obtain ⟨s', h1, h2⟩ := ih (ref := ref) (s := { s with mem := s.log.foldl apply c }) again hl ⟨c, ref', d1, d2, d3⟩ hP
      exact ⟨s', by simp only [run, recover, d1, bind, Except.bind, pure, Except.pure]; exact h1, h2⟩
    | crashBeforeLogged op =>
      obtain ⟨s', h1, h2⟩ := ih (ref := ref) (s := { s with mem := s.log.foldl apply c }) again hl ⟨c, ref', d1, d2, d3⟩ hP
      exact ⟨s', by simp only [run, recover, d1, bind, Except.bind, pure, Except.pure]; exact h1, h2⟩
    | crashAfterLogged op =>
      have hl' : ∀ o ∈ s.log ++ [op], P o := by
        intro o ho
        rcases List.mem_append.1 ho with h | h
        · exact hl o h
        · rw [List.mem_singleton.1 h]; exact hP op (by simp [logged])
      obtain ⟨s', h1, h2⟩ := ih (ref := apply ref op)
        (s := { s with log := s.log ++ [op], mem := (s.log ++ [op]).foldl apply c }) (by
          rw [List.foldl_append]
          exact hR op (hl' op (by simp)) again) hl'
        ⟨c, ref', d1, d2, by simp [List.foldl_append, d3]⟩ fun o ho => hP o (by simp [logged, ho])
      exact ⟨s', by simp only [run, recover, d1, bind, Except.bind, pure, Except.pure]; exact h1, h2⟩
end

variable {I K V D : Type} [PointType I] [IntervalType I K] [LawfulPoint I] [LawfulInterval I K]

/-! ## `NoditMap`, `NoditSet` -/

/-- One call on a `NoditMap`. A client, models no lines of `/repo`; for the calls see `NoditMap.step`. -/
def mapApply [BEq V] (m : NoditMap K V) (op : Op I K V) : NoditMap K V := (m.run [op]).1

theorem map_fold [BEq V] (m : NoditMap K V) (ops : List (Op I K V)) : ops.foldl mapApply m = (m.run ops).1 := by
  induction ops generalizing m with
  | nil => rfl
  | cons op ops ih =>
    rw [List.foldl_cons, ih, mapApply, NoditMap.run, NoditMap.run, NoditMap.run]
    cases m.step op <;> rfl

/-- **C125**: whatever the history of calls, checkpoints and crashes, recovery never fails, and the map is the one that the logged calls
alone lead to. -/
theorem C125_map [BEq V] (es : List (Event (Op I K V))) :
    ∃ s, run mapApply (fun m => m.serialize.elems) NoditMap.deserialize ⟨[], [], (NoditMap.new : NoditMap K V)⟩ es = .ok (.ok s) ∧
      s.mem = ((NoditMap.new : NoditMap K V).run (logged es)).1 := by
  obtain ⟨s, h1, h2, h3⟩ := run_related (C := NoditMap K V) (O := Op I K V) mapApply (fun m => m.serialize.elems) NoditMap.deserialize
    (P := fun _ => True) (R := fun a b => a = b ∧ ∃ ops : List (Op I K V), a = (NoditMap.new.run ops).1) (ref := NoditMap.new) (s := ⟨[], [], NoditMap.new⟩)
    (by
      rintro a _ op - ⟨rfl, ops, rfl⟩
      refine ⟨rfl, ops ++ [op], ?_⟩
      rw [← map_fold, ← map_fold, List.foldl_append]
      rfl)
    (by
      rintro a _ ⟨rfl, ops, h⟩
      exact ⟨a, (C46_map_round_trip ops a h.symm).2, rfl, ops, h⟩)
    ⟨rfl, [], rfl⟩ (by simp) ⟨NoditMap.new, NoditMap.new, rfl, ⟨rfl, [], rfl⟩, rfl⟩ es (by simp)
  exact ⟨s, h1, by rw [h2, map_fold]⟩

/-- **C125** for `NoditSet` -/
theorem C125_set (es : List (Event (SetOp I K))) :
    ∃ s, run (fun s op => NoditSet.run s [op]) (fun s => s.serialize.elems) NoditSet.deserialize ⟨[], [], (NoditSet.new : NoditSet K)⟩ es =
        .ok (.ok s) ∧
      s.mem = (NoditSet.new : NoditSet K).run (logged es) := by
  have hf : ∀ (ops : List (SetOp I K)) (s : NoditSet K), ops.foldl (fun s op => NoditSet.run s [op]) s = s.run ops := by
    intro ops
    induction ops with
    | nil => exact fun _ => rfl
    | cons op ops ih =>
      intro s
      rw [List.foldl_cons, ih]
      simp only [NoditSet.run]
      cases s.step op <;> rfl
  obtain ⟨s, h1, h2, h3⟩ := run_related (C := NoditSet K) (O := SetOp I K) (fun s op => NoditSet.run s [op]) (fun m => m.serialize.elems)
    NoditSet.deserialize
    (P := fun _ => True) (R := fun a b => a = b ∧ ∃ ops : List (SetOp I K), a = NoditSet.new.run ops) (ref := NoditSet.new) (s := ⟨[], [], NoditSet.new⟩)
    (by
      rintro a _ op - ⟨rfl, ops, rfl⟩
      refine ⟨rfl, ops ++ [op], ?_⟩
      rw [← hf (ops ++ [op]), List.foldl_append, hf ops]
      rfl)
    (by
      rintro a _ ⟨rfl, ops, h⟩
      exact ⟨a, (C46_set_round_trip ops a h.symm).2, rfl, ops, h⟩)
    ⟨rfl, [], rfl⟩ (by simp) ⟨NoditSet.new, NoditSet.new, rfl, ⟨rfl, [], rfl⟩, rfl⟩ es (by simp)
  exact ⟨s, h1, by rw [h2, hf]⟩

/-! ## `Gqdit` -/

/-- One call on a `Gqdit`; one that panics leaves it as it was. A client, models no lines of `/repo`; the calls are those of
`gqdit/mod.rs`. -/
def gqApply [DecidableEq D] (g : Gqdit K D) (op : GqOp I K D) : Gqdit K D :=
  let r := match op with
    | .insert ids k => g.insert (I := I) ids k
    | .cutWithIdentifiers ids q => g.cutWithIdentifiers ids q
    | .cutAllIdentifiers q => g.cutAllIdentifiers q
  match r with
  | .ok g => g
  | .error _ => g

/-- **C125** for `Gqdit`, with the first snapshot that of the new `Gqdit` -/
theorem C125_gqdit [DecidableEq D] {g₀ : Gqdit K D} (h₀ : Gqdit.new (I := I) = .ok g₀) (es : List (Event (GqOp I K D))) :
    ∃ s, run gqApply (fun g => g.serialize.elems) Gqdit.deserialize ⟨g₀.serialize.elems, [], g₀⟩ es = .ok (.ok s) ∧
      s.mem = (logged es).foldl gqApply g₀ := by
  have hr : ∀ {g : Gqdit K D} {h : GqHist I K D}, Gqdit.eval h = .ok g → Gqdit.deserialize (E := Unit) (g.serialize.elems.map .ok) = .ok (.ok g) :=
    fun h => (C49_round_trip h).2
  obtain ⟨s, h1, h2, h3⟩ := run_related (C := Gqdit K D) (O := GqOp I K D) gqApply (fun g => g.serialize.elems) Gqdit.deserialize
    (P := fun _ => True) (R := fun a b => a = b ∧ ∃ h : GqHist I K D, Gqdit.eval h = .ok a) (ref := g₀) (s := ⟨g₀.serialize.elems, [], g₀⟩)
    (by
      rintro a _ op - ⟨rfl, h, he⟩
      refine ⟨rfl, ?_⟩
      cases op with
      | insert ids k =>
        simp only [gqApply]
        cases hx : a.insert (I := I) ids k with
        | error _ => exact ⟨h, he⟩
        | ok g => exact ⟨.insert h ids k, by simp only [Gqdit.eval, he, bind, Except.bind]; exact hx⟩
      | cutWithIdentifiers ids q =>
        simp only [gqApply]
        cases hx : a.cutWithIdentifiers ids q with
        | error _ => exact ⟨h, he⟩
        | ok g => exact ⟨.cutWithIdentifiers h ids q, by simp only [Gqdit.eval, he, bind, Except.bind]; exact hx⟩
      | cutAllIdentifiers q =>
        simp only [gqApply]
        cases hx : a.cutAllIdentifiers q with
        | error _ => exact ⟨h, he⟩
        | ok g => exact ⟨.cutAllIdentifiers h q, by simp only [Gqdit.eval, he, bind, Except.bind]; exact hx⟩)
    (by
      rintro a _ ⟨rfl, h, he⟩
      exact ⟨a, hr he, rfl, h, he⟩)
    ⟨rfl, .new, h₀⟩ (by simp) ⟨g₀, g₀, hr (h := .new) h₀, ⟨rfl, .new, h₀⟩, rfl⟩ es (by simp)
  exact ⟨s, h1, h2⟩

/-! ## `ZosditMap` -/

open ZosditMap

/-- One call on a `ZosditMap`. A client, models no lines of `/repo`; for the calls see `ZosditMap.step`. -/
def zApply (m : ZosditMap K V) (op : ZOp I K V) : ZosditMap K V := (m.run [op]).1

theorem z_fold (m : ZosditMap K V) (ops : List (ZOp I K V)) : ops.foldl zApply m = (m.run ops).1 := by
  induction ops generalizing m with
  | nil => rfl
  | cons op ops ih =>
    rw [List.foldl_cons, ih, zApply, ZosditMap.run, ZosditMap.run, ZosditMap.run]
    cases m.step op <;> rfl

/-- what is read back has the same stores, and its counter is right -/
theorem z_read_back {m : ZosditMap K V} (hg : Good m) (hnd : NoDup m.inner) (picks : Nat → Nat) :
    ∃ m' : ZosditMap K V, deserialize (E := Unit) (m.serialize.elems.map .ok) picks = .ok (.ok m') ∧ m'.inner = m.inner ∧ Good m' ∧ m'.len = m.iter.length := by
  obtain ⟨f1, f2⟩ := hg.inv.flat
  obtain ⟨m', l', i1, i2, i3, i4, i5, i6, i7⟩ := zvisit_sorted (E := Unit) (good_new (I := I) (K := K) (V := V)) (by simp [NoDup, new]) picks
    f1 f2 (by simp [new, iter, flatten])
  have hkeys : ∀ a ∈ (new : ZosditMap K V).iter ++ flatten m.inner, ∀ b ∈ flatten m.inner,
      SameInterval a.1 b.1 → a.1 = b.1 := by
    intro a ha b hb hab
    have ha : a ∈ flatten m.inner := by simpa [new, iter, flatten] using ha
    obtain ⟨h1, h2⟩ := (sameInterval_iff (f1 a ha) (f1 b hb)).1 hab
    obtain ⟨d, hd, hd1, -⟩ := mem_flatten.1 ha
    obtain ⟨d', hd', hd1', -⟩ := mem_flatten.1 hb
    by_contra hne
    have hdd : d ≠ d' := fun hc => hne (by rw [← hd1, ← hd1', hc])
    have hva := f1 a ha
    rcases pairwise_or (hg.inv.seq.and ((noDup_iff hg.inv).1 hnd)) hd hd' hdd with ⟨g1, g2⟩ | ⟨g1, g2⟩
    · exact g2 (by rw [hd1, hd1']; exact hab)
    · exact g2 (by rw [hd1, hd1']; exact (sameInterval_iff (f1 b hb) (f1 a ha)).2 ⟨h1.symm, h2.symm⟩)
  refine ⟨m', i1, flatten_inj i2.inv i3 hg.inv hnd ?_, i2, ?_⟩
  swap
  · rw [i5]; simp [new, iter]
  have := i4
  rw [i7 hkeys] at this
  simpa [new, iter, flatten] using this

/-- calls other than `cut` do not look at the counter -/
theorem z_step_inner {a b : ZosditMap K V} (h : a.inner = b.inner) (hl : a.len ≤ b.len) {op : ZOp I K V} (hc : op.isCut = false) :
    (zApply a op).inner = (zApply b op).inner ∧ (zApply a op).len ≤ (zApply b op).len ∧ (a.run [op]).2 = (b.run [op]).2 := by
  obtain ⟨la, ia⟩ := a
  obtain ⟨lb, ib⟩ := b
  cases h
  cases op with
  | cut q => simp [ZOp.isCut] at hc
  | insertStrictBack k v pick =>
    simp only [zApply, ZosditMap.run, ZosditMap.step, insertStrictBack, isZeroOverlap, bind, Except.bind, pure, Except.pure]
    cases invalidIntervalPanic k with
    | error _ => exact ⟨rfl, hl, rfl⟩
    | ok u =>
      simp only
      split_ifs
      · exact ⟨rfl, hl, rfl⟩
      · cases entryPush (insertComp k) k v pick ia with
        | error _ => exact ⟨rfl, hl, rfl⟩
        | ok l => exact ⟨rfl, Nat.succ_le_succ hl, rfl⟩
  | removeLastValueAtPoint p =>
    simp only [zApply, ZosditMap.run, ZosditMap.step, removeLastValueAtPoint, lastAtPointCursor, bind, Except.bind, pure, Except.pure]
    generalize (if (BTree.lowerBound (exclusiveComp p Ordering.gt) ia).key.isNone = true then
      (BTree.lowerBound (exclusiveComp p Ordering.gt) ia).movePrev else BTree.lowerBound (exclusiveComp p Ordering.gt) ia) = c
    obtain ⟨cb, ca⟩ := c
    cases ca with
    | nil => exact ⟨rfl, hl, rfl⟩
    | cons e rest =>
      obtain ⟨k, vs⟩ := e
      simp only
      split_ifs
      · cases unwrap vs.getLast? with
        | error _ => exact ⟨rfl, hl, rfl⟩
        | ok v => exact ⟨rfl, hl, rfl⟩
      · cases unwrap vs.getLast? with
        | error _ => exact ⟨rfl, hl, rfl⟩
        | ok v => exact ⟨rfl, hl, rfl⟩
      · exact ⟨rfl, hl, rfl⟩

/-- **C125** for `ZosditMap`, as long as no `cut` is called: recovery never fails; the entries are, in order, those that the logged
calls alone lead to, every query but `len()` and `is_empty()` and every further call other than `cut` returns the same; `len()` lies between
the number of entries and what it would be without crashes. (`picks` says which store inserts go to where there is a choice; here there is none.) -/
theorem C125_zosdit (picks : Nat → Nat) (es : List (Event (ZOp I K V))) (hc : ∀ op ∈ logged es, op.isCut = false) :
    ∃ s, run zApply (fun m => m.serialize.elems) (fun l => ZosditMap.deserialize l picks) ⟨[], [], (ZosditMap.new : ZosditMap K V)⟩ es =
        .ok (.ok s) ∧
      s.mem.iter = (after (logged es)).iter ∧
      (∀ p : I, s.mem.getLastValueAtPoint p = (after (logged es)).getLastValueAtPoint p) ∧
      (∀ q : Interval I, s.mem.overlapping q = (after (logged es)).overlapping q ∧ s.mem.isZeroOverlap q = (after (logged es)).isZeroOverlap q) ∧
      s.mem.firstKeyValue = (after (logged es)).firstKeyValue ∧ s.mem.lastKeyValue = (after (logged es)).lastKeyValue ∧
      (∀ op : ZOp I K V, op.isCut = false → (s.mem.run [op]).2 = ((after (logged es)).run [op]).2) ∧
      s.mem.iter.length ≤ s.mem.length ∧ s.mem.length ≤ (after (logged es)).length := by
  obtain ⟨s, h1, h2, h3, h4, h5, h6⟩ := run_related (C := ZosditMap K V) (O := ZOp I K V) zApply (fun m => m.serialize.elems)
    (fun l => ZosditMap.deserialize l picks) (P := fun op => op.isCut = false)
    (R := fun a b => a.inner = b.inner ∧ a.len ≤ b.len ∧ Good a ∧ Good b ∧ NoDup a.inner) (ref := ZosditMap.new) (s := ⟨[], [], ZosditMap.new⟩)
    (by
      rintro a b op hp ⟨r1, r2, r3, r4, r5⟩
      obtain ⟨z1, z2, -⟩ := z_step_inner r1 r2 hp
      exact ⟨z1, z2, (run_ok r3 [op]).1, (run_ok r4 [op]).1, (run_ok r3 [op]).2.2.2 r5 (by simpa using hp)⟩)
    (by
      rintro a b ⟨r1, r2, r3, r4, r5⟩
      obtain ⟨m', z1, z2, z3, z4⟩ := z_read_back r3 r5 picks
      exact ⟨m', z1, z2.trans r1, by rw [z4]; exact r3.len.trans r2, z3, r4, by rw [z2]; exact r5⟩)
    ⟨rfl, le_rfl, good_new, good_new, by simp [NoDup, ZosditMap.new]⟩ (by simp)
    ⟨ZosditMap.new, ZosditMap.new, rfl, ⟨rfl, le_rfl, good_new, good_new, by simp [NoDup, ZosditMap.new]⟩, rfl⟩ es hc
  rw [z_fold] at h2 h3
  change s.mem.inner = (after (logged es)).inner at h2
  change s.mem.len ≤ (after (logged es)).len at h3
  refine ⟨s, h1, by rw [iter, h2]; rfl, fun p => ?_, fun q => ⟨?_, ?_⟩, ?_, ?_, fun op ho => (z_step_inner h2 h3 ho).2.2, h4.len, h3⟩
  · rw [getLastValueAtPoint, getLastValueAtPoint, lastAtPointCursor, lastAtPointCursor, h2]
  · rw [ZosditMap.overlapping, ZosditMap.overlapping, h2]
  · rw [isZeroOverlap, isZeroOverlap, h2]
  · rw [firstKeyValue, firstKeyValue, h2]
  · rw [lastKeyValue, lastKeyValue, h2]

/-- **C125** does not extend to `ZosditMap` with `cut`: after `cut` has left two stores for one point, a snapshot does not say where one ends
and the other begins; replaying the same insert after a crash can put the value elsewhere, and `get_last_value_at_point` gives another value than
the one acknowledged before the crash. -/
theorem C125_zosdit_cut_reorders : ∃ (ops ops' : List (ZOp Demo.U8 (Interval Demo.U8) Nat)) (s s' : Sys (ZosditMap (Interval Demo.U8) Nat) (Interval Demo.U8 × Nat) (ZOp Demo.U8 (Interval Demo.U8) Nat)),
    run zApply (fun m => m.serialize.elems) (fun l => ZosditMap.deserialize l (fun _ => 0)) ⟨[], [], ZosditMap.new⟩
      (ops.map .call ++ [.checkpoint] ++ ops'.map .call) = .ok (.ok s) ∧
    run zApply (fun m => m.serialize.elems) (fun l => ZosditMap.deserialize l (fun _ => 0)) s [.crash] = .ok (.ok s') ∧
    s.mem.getLastValueAtPoint (Demo.u8 4) = some 2 ∧ s'.mem.getLastValueAtPoint (Demo.u8 4) = some 3 :=
  ⟨Demo.zdup, [.insertStrictBack (Demo.iv 4 4) 3 0], _, _, rfl, rfl, by decide, by decide⟩

/-! ## Torn snapshots -/

/-- **C125**, an incomplete snapshot: if the format reports that the sequence breaks off (an error after the first `n` elements), reading it
gives that error; if it does not (the sequence just ends), reading it gives the map of the first `n` entries, although the announced length was
larger. -/
theorem C125_torn_snapshot {m : NoditMap K V} (h : WF m.iter) (n : Nat) {E : Type} (e : E) (rest : List (Except E (K × V))) :
    NoditMap.deserialize ((m.serialize.elems.take n).map .ok ++ .error e :: rest) =
      .ok (.error (.format e) : Except (DeError E) (NoditMap K V)) ∧
    ∃ m' : NoditMap K V, NoditMap.deserialize (E := E) ((m.serialize.elems.take n).map .ok) = .ok (.ok m') ∧ m'.iter = m.iter.take n ∧ WF m'.iter := by
  have hw : WF (⟨m.iter.take n⟩ : NoditMap K V).iter := ⟨fun x hx => h.1 x (List.mem_of_mem_take hx), h.2.sublist (List.take_sublist _ _)⟩
  have hd : (m.iter.take n).Pairwise (fun a b => ¬ Overlap a.1 b.1) :=
    hw.2.imp (fun hb ⟨p, h1, h2⟩ => lt_irrefl p (hb p p h1 h2))
  refine ⟨?_, ⟨m.iter.take n⟩, deserialize_serialize hw, rfl, hw⟩
  obtain ⟨m', h1, -⟩ := visitSeqFrom_append (wf_new (K := K) (V := V) (I := I)) hw.1 hd (by simp [NoditMap.new, NoditMap.iter]) (.error e :: rest)
  rw [NoditMap.deserialize]
  exact h1

end Nodit.Durable
