import Verif.Props.RangeUpdate
import Verif.Props.AgreementGqdit
/-!
# C136: shared and exclusive locks on ranges

A lock manager for ranges of points (bytes of a file, rows of a table): any number of owners may read the same point, one may write it, and nobody
reads what somebody else is writing. It keeps the writers in a `NoditMap` and the readers in a `Gqdit`, and refuses a request it cannot grant.
-/
set_option linter.unusedSectionVars false
namespace Nodit.Locks
open Spec PointType InclusiveInterval Gqdit

variable {I K D : Type} [PointType I] [IntervalType I K] [LawfulPoint I] [LawfulInterval I K] [DecidableEq D]

/-- what owners may ask for. A client, models no lines of `/repo`. -/
inductive Request (K D : Type) where
  | read (d : D) (k : K)
  | write (d : D) (k : K)
  | doneReading (d : D) (k : K)
  | doneWriting (d : D) (k : K)

/-- the range asked for. A client, models no lines of `/repo`. -/
def Request.range : Request K D → K
  | .read _ k | .write _ k | .doneReading _ k | .doneWriting _ k => k

/-- the lock manager. A client, models no lines of `/repo`. -/
structure Manager (K D : Type) where
  writers : NoditMap K D
  readers : Gqdit K D

/-- One request; `true` if it is granted. A client, models no lines of `/repo`; it calls `overlapping`, `insert_overwrite` and (through
`RangeUpdate.update`) `gaps_trimmed`, `cut` and `insert_strict` of `NoditMap`, and `insert`, `cut_with_identifiers` and `gaps_with_identifier` of `Gqdit`. -/
def Manager.step (m : Manager K D) : Request K D → Res (Manager K D × Bool)
  | .read d k => do
    let held ← m.writers.overlapping (I := I) k
    if held.all (fun e => e.2 = d) then
      let g ← m.readers.insert (I := I) {d} k
      pure ({ m with readers := g }, true)
    else pure (m, false)
  | .write d k => do
    let held ← m.writers.overlapping (I := I) k
    let free ← m.readers.gapsWithIdentifier (I := I) d k
    if held.all (fun e => e.2 = d) ∧ free.any (fun g => start (I := I) g ≤ start k ∧ stop (I := I) k ≤ stop g) then
      let (w, _) ← m.writers.insertOverwrite (I := I) k d
      pure ({ m with writers := w }, true)
    else pure (m, false)
  | .doneReading d k => do
    let g ← m.readers.cutWithIdentifiers (I := I) {d} k
    pure ({ m with readers := g }, true)
  | .doneWriting d k => do
    let w ← RangeUpdate.update (I := I) m.writers k (fun v => if v = some d then none else v)
    pure ({ m with writers := w }, true)

/-- Any number of requests, in the order in which they come, and the answers. A client, models no lines of `/repo`. -/
def Manager.run (m : Manager K D) : List (Request K D) → Res (Manager K D × List Bool)
  | [] => pure (m, [])
  | r :: rs => do
    let (m, b) ← m.step (I := I) r
    let (m, bs) ← m.run rs
    pure (m, b :: bs)

/-- no locks. A client, models no lines of `/repo`. -/
def Manager.new : Res (Manager K D) := do pure ⟨NoditMap.new, ← Gqdit.new (I := I)⟩

/-- The specification: for each point who writes it and who reads it. Models no lines of `/repo`. -/
structure Held (I D : Type) where
  writer : I → Option D
  readers : I → Finset D

open Classical in
/-- The specification of a request. Models no lines of `/repo`. -/
noncomputable def Held.step (h : Held I D) : Request K D → Held I D × Bool
  | .read d k =>
    if ∀ p, Mem p k → ∀ e, h.writer p = some e → e = d then
      ({ h with readers := fun p => if Mem p k then h.readers p ∪ {d} else h.readers p }, true)
    else (h, false)
  | .write d k =>
    if (∀ p, Mem p k → ∀ e, h.writer p = some e → e = d) ∧ (∀ p, Mem p k → ∀ e ∈ h.readers p, e = d) then
      ({ h with writer := fun p => if Mem p k then some d else h.writer p }, true)
    else (h, false)
  | .doneReading d k => ({ h with readers := fun p => if Mem p k then h.readers p \ {d} else h.readers p }, true)
  | .doneWriting d k => ({ h with writer := fun p => if Mem p k ∧ h.writer p = some d then none else h.writer p }, true)

/-- The specification of any number of requests. Models no lines of `/repo`. -/
noncomputable def Held.run (h : Held I D) : List (Request K D) → Held I D × List Bool
  | [] => (h, [])
  | r :: rs => (((h.step r).1.run rs).1, (h.step r).2 :: ((h.step r).1.run rs).2)

/-- the manager holds exactly these locks -/
structure Holds (m : Manager K D) (h : Held I D) : Prop where
  wf : WF (I := I) m.writers.iter
  writer : ∀ p, m.writers.getAtPoint p = .ok (h.writer p)
  readers : Rep m.readers h.readers

theorem held_all {m : NoditMap K D} {w : I → Option D} (hw : WF (I := I) m.iter) (hm : ∀ p, m.getAtPoint p = .ok (w p)) (d : D) {k : K}
    (hk : Valid (I := I) k) :
    ∃ l, m.overlapping (I := I) k = .ok l ∧ (l.all (fun e => e.2 = d) = true ↔ ∀ p, Mem p k → ∀ e, w p = some e → e = d) := by
  obtain ⟨l, h1, -, h3⟩ := (C05_overlapping_exact hw k hk).1
  refine ⟨l, h1, ?_⟩
  have hat : ∀ p v, w p = some v ↔ ∃ e ∈ m.iter, Mem p e.1 ∧ e.2 = v := by
    intro p v
    obtain ⟨r, e1, e2⟩ := NoditMap.spec_getAtPoint hw p
    rw [hm p] at e1; cases e1
    exact e2 v
  simp only [List.all_eq_true, decide_eq_true_eq]
  constructor
  · intro h p hp v hv
    obtain ⟨e, he, hpe, rfl⟩ := (hat p v).1 hv
    exact h e ((h3 e).2 ⟨he, p, hpe, hp⟩)
  · intro h e he
    obtain ⟨he, p, hpe, hp⟩ := (h3 e).1 he
    exact h p hp e.2 ((hat p _).2 ⟨e, he, hpe, rfl⟩)

theorem free_any {g : Gqdit K D} {f : I → Finset D} (h : Rep g f) (d : D) {k : K} (hk : Valid (I := I) k) :
    ∃ l, g.gapsWithIdentifier (I := I) d k = .ok l ∧
      (l.any (fun g => start (I := I) g ≤ start k ∧ stop (I := I) k ≤ stop g) = true ↔ ∀ p, Mem p k → ∀ e ∈ f p, e = d) := by
  obtain ⟨l, h1, hr⟩ := gapsWith_runs h d hk
  refine ⟨l, h1, ?_⟩
  have hkv := valid_iff.1 hk
  simp only [List.any_eq_true, decide_eq_true_eq]
  have hsub : ∀ p, (∀ e ∈ f p, e = d) ↔ f p ⊆ {d} := fun p => by simp [Finset.subset_iff]
  simp only [hsub]
  constructor
  · rintro ⟨x, hx, a, b⟩ p hp
    obtain ⟨i, rfl, hi, -⟩ := (hr.lists.2 x).1 hx
    rw [start_of] at a; rw [stop_of] at b
    exact hi.2.1 p ⟨a.trans hp.1, hp.2.trans b⟩
  · intro hall
    obtain ⟨x, rfl, hx⟩ := (hr.single_iff hk).1 hall
    exact ⟨x, by simp, (hx (start k) ⟨le_refl _, hkv⟩).1, (hx (stop k) ⟨hkv, le_refl _⟩).2⟩

theorem Holds.step {m : Manager K D} {h : Held I D} (hm : Holds m h) (r : Request K D) (hr : Valid (I := I) r.range) :
    ∃ m', m.step (I := I) r = .ok (m', (h.step r).2) ∧ Holds m' (h.step r).1 := by
  obtain ⟨h1, h2, h3⟩ := hm
  cases r with
  | read d k =>
    have hr : Valid (I := I) k := hr
    obtain ⟨l, e1, e2⟩ := held_all h1 h2 d hr
    obtain ⟨g, f1, f2⟩ := h3.insert hr {d}
    by_cases hc : ∀ p, Mem p k → ∀ e, h.writer p = some e → e = d
    · refine ⟨{ m with readers := g }, ?_, h1, ?_, ?_⟩
      · simp only [Manager.step, Held.step, e1, bind, Except.bind, f1, pure, Except.pure]
        rw [if_pos (e2.2 hc), if_pos hc]
      · simp only [Held.step]; rw [if_pos hc]; exact h2
      · simp only [Held.step]; rw [if_pos hc]; exact f2
    · refine ⟨m, ?_, ?_⟩
      · simp only [Manager.step, Held.step, e1, bind, Except.bind, pure, Except.pure]
        rw [if_neg (mt e2.1 hc), if_neg hc]
      · simp only [Held.step]; rw [if_neg hc]; exact ⟨h1, h2, h3⟩
  | write d k =>
    have hr : Valid (I := I) k := hr
    obtain ⟨l, e1, e2⟩ := held_all h1 h2 d hr
    obtain ⟨fr, g1, g2⟩ := free_any h3 d hr
    obtain ⟨mc, w, out, -, f1, -, f2, -, f3⟩ := C09_insert_overwrite h1 k hr d
    have hiff := and_congr e2 g2
    by_cases hc : (∀ p, Mem p k → ∀ e, h.writer p = some e → e = d) ∧ (∀ p, Mem p k → ∀ e ∈ h.readers p, e = d)
    · refine ⟨{ m with writers := w }, ?_, ?_, ?_, ?_⟩
      · simp only [Manager.step, Held.step, e1, g1, bind, Except.bind, f1, pure, Except.pure]
        rw [if_pos (hiff.2 hc), if_pos hc]
      · exact f2
      · simp only [Held.step]; rw [if_pos hc]
        intro p
        by_cases hp : Mem p k
        · simp only [hp, if_true]; exact (f3 p).1 hp
        · simp only [hp, if_false]; rw [(f3 p).2 hp]; exact h2 p
      · simp only [Held.step]; rw [if_pos hc]; exact h3
    · refine ⟨m, ?_, ?_⟩
      · simp only [Manager.step, Held.step, e1, g1, bind, Except.bind, pure, Except.pure]
        rw [if_neg (mt hiff.1 hc), if_neg hc]
      · simp only [Held.step]; rw [if_neg hc]; exact ⟨h1, h2, h3⟩
  | doneReading d k =>
    have hr : Valid (I := I) k := hr
    obtain ⟨g, f1, f2⟩ := h3.cutWith hr {d}
    exact ⟨{ m with readers := g }, by simp only [Manager.step, Held.step, bind, Except.bind, f1, pure, Except.pure], h1, h2, f2⟩
  | doneWriting d k =>
    have hr : Valid (I := I) k := hr
    obtain ⟨w, f1, f2, f3, -⟩ := RangeUpdate.C120_update h1 hr (fun v => if v = some d then none else v)
    refine ⟨{ m with writers := w }, by simp only [Manager.step, Held.step, bind, Except.bind, f1, pure, Except.pure], f2, fun p => ?_, h3⟩
    simp only [Held.step]
    by_cases hp : Mem p k
    · rw [(f3 p).1 hp, h2 p]; simp only [hp, true_and]; rfl
    · rw [(f3 p).2 hp, h2 p]; simp only [hp, false_and, if_false]

theorem Holds.run {m : Manager K D} {h : Held I D} (hm : Holds m h) (rs : List (Request K D)) (hr : ∀ r ∈ rs, Valid (I := I) r.range) :
    ∃ m', m.run (I := I) rs = .ok (m', (h.run rs).2) ∧ Holds m' (h.run rs).1 := by
  induction rs generalizing m h with
  | nil => exact ⟨m, rfl, hm⟩
  | cons r rs ih =>
    obtain ⟨m1, e1, e2⟩ := hm.step r (hr r (by simp))
    obtain ⟨m2, f1, f2⟩ := ih e2 (fun x hx => hr x (by simp [hx]))
    exact ⟨m2, by simp only [Manager.run, e1, f1, bind, Except.bind, pure, Except.pure, Held.run], f2⟩

theorem holds_new : ∃ m : Manager K D, Manager.new (I := I) = .ok m ∧ Holds m (⟨fun _ => none, fun _ => ∅⟩ : Held I D) := by
  obtain ⟨g, h1, h2⟩ := new_rep (I := I) (K := K) (D := D)
  refine ⟨⟨NoditMap.new, g⟩, by simp only [Manager.new, h1, bind, Except.bind, pure, Except.pure], wf_new, fun p => ?_, h2⟩
  obtain ⟨r, e1, e2⟩ := NoditMap.spec_getAtPoint (wf_new (K := K) (V := D) (I := I)) p
  rw [e1]
  cases r with
  | none => rfl
  | some v => obtain ⟨e, he, -⟩ := (e2 v).1 rfl; cases he

/-- **C136**: for every sequence of requests with valid ranges nothing panics, a request is granted exactly if no point of its range is locked by somebody
else in a conflicting way, and at every moment `get_at_point` of the writers and `identifiers_at_point` of the readers give exactly the locks held -/
theorem C136_history (rs : List (Request K D)) (hr : ∀ r ∈ rs, Valid (I := I) r.range) :
    let spec := (⟨fun _ => none, fun _ => ∅⟩ : Held I D).run rs
    ∃ m₀ m : Manager K D, Manager.new (I := I) = .ok m₀ ∧ m₀.run (I := I) rs = .ok (m, spec.2) ∧
      ∀ p, m.writers.getAtPoint p = .ok (spec.1.writer p) ∧ m.readers.identifiersAtPoint p = .ok (spec.1.readers p) := by
  obtain ⟨m₀, h1, h2⟩ := holds_new (I := I) (K := K) (D := D)
  obtain ⟨m, h3, h4⟩ := h2.run rs hr
  exact ⟨m₀, m, h1, h3, fun p => ⟨h4.writer p, h4.readers.identifiers p⟩⟩

theorem exclusive_run {h : Held I D} (hx : ∀ p d, h.writer p = some d → ∀ e ∈ h.readers p, e = d) (rs : List (Request K D)) :
    ∀ p d, (h.run rs).1.writer p = some d → ∀ e ∈ (h.run rs).1.readers p, e = d := by
  induction rs generalizing h with
  | nil => exact hx
  | cons r rs ih =>
    refine ih ?_
    cases r with
    | read d k =>
      simp only [Held.step]
      split_ifs with hc
      · intro p e he x hxm
        simp only at he hxm
        split_ifs at hxm with hp
        · rcases Finset.mem_union.1 hxm with hxm | hxm
          · exact hx p e he x hxm
          · rw [Finset.mem_singleton.1 hxm]; exact (hc p hp e he).symm
        · exact hx p e he x hxm
      · exact hx
    | write d k =>
      simp only [Held.step]
      split_ifs with hc
      · intro p e he x hxm
        simp only at he hxm
        split_ifs at he with hp
        · cases he; exact hc.2 p hp x hxm
        · exact hx p e he x hxm
      · exact hx
    | doneReading d k =>
      intro p e he x hxm
      simp only [Held.step] at he hxm
      split_ifs at hxm with hp
      · exact hx p e he x (Finset.mem_sdiff.1 hxm).1
      · exact hx p e he x hxm
    | doneWriting d k =>
      intro p e he x hxm
      simp only [Held.step] at he hxm
      split_ifs at he with hp
      exact hx p e he x hxm

/-- **C136**: whatever the requests and their order, nobody reads a point that somebody else writes -/
theorem C136_exclusion (rs : List (Request K D)) (hr : ∀ r ∈ rs, Valid (I := I) r.range) {m₀ m : Manager K D} {bs : List Bool}
    (h₀ : Manager.new (I := I) = .ok m₀) (h : m₀.run (I := I) rs = .ok (m, bs)) {p : I} {d : D} (hp : m.writers.getAtPoint p = .ok (some d)) :
    m.readers.identifiersAtPoint p = .ok ∅ ∨ m.readers.identifiersAtPoint p = .ok {d} := by
  obtain ⟨m₁, m', h1, h2, h3⟩ := C136_history rs hr
  rw [h₀] at h1; cases h1
  rw [h] at h2; cases h2
  obtain ⟨h4, h5⟩ := h3 p
  rw [h4, Except.ok.injEq] at hp
  have := exclusive_run (h := ⟨fun _ => none, fun _ => ∅⟩) (by simp) rs p d hp
  rw [h5, Except.ok.injEq, Except.ok.injEq]
  exact Finset.subset_singleton_iff.1 fun e he => Finset.mem_singleton.2 (this e he)

/-- **C136**: nobody can be made to give up a lock: as long as `d` does not say it is done, its locks stay, whatever the others ask for -/
theorem C136_kept (rs rs' : List (Request K D)) (hr : ∀ r ∈ rs ++ rs', Valid (I := I) r.range) {m₀ m : Manager K D} {bs : List Bool}
    (h₀ : Manager.new (I := I) = .ok m₀) (h : m₀.run (I := I) rs = .ok (m, bs)) (d : D)
    (hd : ∀ k, .doneReading d k ∉ rs' ∧ .doneWriting d k ∉ rs') :
    ∃ m' bs', m.run (I := I) rs' = .ok (m', bs') ∧ ∀ p : I,
      (m.writers.getAtPoint p = .ok (some d) → m'.writers.getAtPoint p = .ok (some d)) ∧
      ∀ ids ids', m.readers.identifiersAtPoint p = .ok ids → m'.readers.identifiersAtPoint p = .ok ids' → d ∈ ids → d ∈ ids' := by
  obtain ⟨m₁, h1, h2⟩ := holds_new (I := I) (K := K) (D := D)
  rw [h₀] at h1; cases h1
  obtain ⟨m2, h3, h4⟩ := h2.run rs (fun r hx => hr r (by simp [hx]))
  rw [h] at h3; cases h3
  obtain ⟨m', f1, f2⟩ := h4.run rs' (fun r hx => hr r (by simp [hx]))
  have key : ∀ (rs' : List (Request K D)) (h : Held I D), (∀ k, .doneReading d k ∉ rs' ∧ .doneWriting d k ∉ rs') → ∀ p,
      (h.writer p = some d → (h.run rs').1.writer p = some d) ∧ (d ∈ h.readers p → d ∈ (h.run rs').1.readers p) := by
    intro rs'
    induction rs' with
    | nil => intro h _ p; exact ⟨id, id⟩
    | cons r rs' ih =>
      intro h hd p
      obtain ⟨i1, i2⟩ := ih (h.step r).1 (fun k => ⟨fun hx => (hd k).1 (by simp [hx]), fun hx => (hd k).2 (by simp [hx])⟩) p
      have hs : (h.writer p = some d → (h.step r).1.writer p = some d) ∧ (d ∈ h.readers p → d ∈ (h.step r).1.readers p) := by
        cases r with
        | read e k =>
          simp only [Held.step]
          split_ifs with hc
          · refine ⟨id, fun hx => ?_⟩
            simp only
            split_ifs
            · exact Finset.mem_union_left _ hx
            · exact hx
          · exact ⟨id, id⟩
        | write e k =>
          simp only [Held.step]
          split_ifs with hc
          · refine ⟨fun hx => ?_, id⟩
            simp only
            split_ifs with hp
            · rw [hc.1 p hp d hx]
            · exact hx
          · exact ⟨id, id⟩
        | doneReading e k =>
          refine ⟨id, fun hx => ?_⟩
          simp only [Held.step]
          split_ifs
          · refine Finset.mem_sdiff.2 ⟨hx, fun he => ?_⟩
            obtain rfl := Finset.mem_singleton.1 he
            exact (hd k).1 (by simp)
          · exact hx
        | doneWriting e k =>
          refine ⟨fun hx => ?_, id⟩
          simp only [Held.step]
          rw [if_neg]
          · exact hx
          · rintro ⟨-, he⟩
            rw [hx] at he; cases he
            exact (hd k).2 (by simp)
      exact ⟨fun hx => i1 (hs.1 hx), fun hx => i2 (hs.2 hx)⟩
  refine ⟨m', _, f1, fun p => ⟨fun hx => ?_, fun ids ids' g1 g2 hx => ?_⟩⟩
  · rw [h4.writer p, Except.ok.injEq] at hx
    rw [f2.writer p, (key rs' _ hd p).1 hx]
  · rw [h4.readers.identifiers p, Except.ok.injEq] at g1
    rw [f2.readers.identifiers p, Except.ok.injEq] at g2
    subst g1; subst g2
    exact (key rs' _ hd p).2 hx

/-- **C136**: no lock is left behind: when everybody who ever got a lock has said it is done with the whole domain, no point is locked -/
theorem C136_released (rs rs' : List (Request K D)) (hr : ∀ r ∈ rs ++ rs', Valid (I := I) r.range)
    (hd : ∀ d k, (.read d k ∈ rs → .doneReading d (ofInterval ⟨MIN, MAX⟩ : K) ∈ rs') ∧ (.write d k ∈ rs → .doneWriting d (ofInterval ⟨MIN, MAX⟩ : K) ∈ rs'))
    (hn : ∀ d k, .read d k ∉ rs' ∧ .write d k ∉ rs') {m₀ : Manager K D} (h₀ : Manager.new (I := I) = .ok m₀) :
    ∃ m bs, m₀.run (I := I) (rs ++ rs') = .ok (m, bs) ∧ ∀ p : I, m.writers.getAtPoint p = .ok none ∧ m.readers.identifiersAtPoint p = .ok ∅ := by
  obtain ⟨m₁, m, h1, h2, h3⟩ := C136_history (rs ++ rs') hr
  rw [h₀] at h1; cases h1
  refine ⟨m, _, h2, fun p => ?_⟩
  have hmem : ∀ p : I, Mem p (ofInterval (⟨MIN, MAX⟩ : Interval I) : K) := fun p => mem_ofInterval.2 ⟨min_le p, le_max p⟩
  have happ : ∀ (rs rs' : List (Request K D)) (h : Held I D), (h.run (rs ++ rs')).1 = ((h.run rs).1.run rs').1 := by
    intro rs
    induction rs with
    | nil => intro rs' h; rfl
    | cons r rs ih => intro rs' h; exact ih rs' _
  -- who holds a lock has asked for it
  have asked : ∀ (rs : List (Request K D)) (h : Held I D), ∀ d,
      ((h.run rs).1.writer p = some d → h.writer p = some d ∨ ∃ k, .write d k ∈ rs) ∧
      (d ∈ (h.run rs).1.readers p → d ∈ h.readers p ∨ ∃ k, .read d k ∈ rs) := by
    intro rs
    induction rs with
    | nil => intro h d; exact ⟨Or.inl, Or.inl⟩
    | cons r rs ih =>
      intro h d
      obtain ⟨i1, i2⟩ := ih (h.step r).1 d
      constructor
      · intro hx
        rcases i1 hx with hx | ⟨k, hk⟩
        · cases r with
          | read e k => simp only [Held.step] at hx; split_ifs at hx <;> exact Or.inl hx
          | write e k =>
            simp only [Held.step] at hx
            split_ifs at hx with hc
            · simp only at hx
              split_ifs at hx with hp
              · cases hx; exact Or.inr ⟨k, by simp⟩
              · exact Or.inl hx
            · exact Or.inl hx
          | doneReading e k => exact Or.inl hx
          | doneWriting e k =>
            simp only [Held.step] at hx
            split_ifs at hx with hc
            exact Or.inl hx
        · exact Or.inr ⟨k, by simp [hk]⟩
      · intro hx
        rcases i2 hx with hx | ⟨k, hk⟩
        · cases r with
          | read e k =>
            simp only [Held.step] at hx
            split_ifs at hx with hc
            · simp only at hx
              split_ifs at hx with hp
              · rcases Finset.mem_union.1 hx with hx | hx
                · exact Or.inl hx
                · obtain rfl := Finset.mem_singleton.1 hx; exact Or.inr ⟨k, by simp⟩
              · exact Or.inl hx
            · exact Or.inl hx
          | write e k => simp only [Held.step] at hx; split_ifs at hx <;> exact Or.inl hx
          | doneReading e k =>
            simp only [Held.step] at hx
            split_ifs at hx with hc
            · exact Or.inl (Finset.mem_sdiff.1 hx).1
            · exact Or.inl hx
          | doneWriting e k => exact Or.inl hx
        · exact Or.inr ⟨k, by simp [hk]⟩
  -- who has said it is done holds nothing
  have gone : ∀ (rs' : List (Request K D)) (h : Held I D), (∀ d k, .read d k ∉ rs' ∧ .write d k ∉ rs') → ∀ d,
      (.doneWriting d (ofInterval ⟨MIN, MAX⟩ : K) ∈ rs' ∨ h.writer p ≠ some d → (h.run rs').1.writer p ≠ some d) ∧
      (.doneReading d (ofInterval ⟨MIN, MAX⟩ : K) ∈ rs' ∨ d ∉ h.readers p → d ∉ (h.run rs').1.readers p) := by
    intro rs'
    induction rs' with
    | nil => intro h _ d; exact ⟨fun hx => hx.resolve_left (by simp), fun hx => hx.resolve_left (by simp)⟩
    | cons r rs' ih =>
      intro h hn d
      obtain ⟨i1, i2⟩ := ih (h.step r).1 (fun d k => ⟨fun hx => (hn d k).1 (by simp [hx]), fun hx => (hn d k).2 (by simp [hx])⟩) d
      cases r with
      | read e k => exact absurd (by simp) (hn e k).1
      | write e k => exact absurd (by simp) (hn e k).2
      | doneReading e k =>
        refine ⟨fun hx => i1 (hx.imp_left fun h => by simpa using h), fun hx => i2 ?_⟩
        simp only [List.mem_cons, Request.doneReading.injEq] at hx
        simp only [Held.step]
        rcases hx with (⟨rfl, rfl⟩ | hx) | hx
        · right; rw [if_pos (hmem p)]; simp
        · exact Or.inl hx
        · right; split_ifs
          · exact fun hy => hx (Finset.mem_sdiff.1 hy).1
          · exact hx
      | doneWriting e k =>
        refine ⟨fun hx => i1 ?_, fun hx => i2 (hx.imp_left fun h => by simpa using h)⟩
        simp only [List.mem_cons, Request.doneWriting.injEq] at hx
        simp only [Held.step]
        rcases hx with (⟨rfl, rfl⟩ | hx) | hx
        · right
          by_cases hw : h.writer p = some d
          · rw [if_pos ⟨hmem p, hw⟩]; simp
          · rw [if_neg fun hc => hw hc.2]; exact hw
        · exact Or.inl hx
        · right; split_ifs
          · simp
          · exact hx
  obtain ⟨h4, h5⟩ := h3 p
  rw [h4, h5, happ, Except.ok.injEq, Except.ok.injEq]
  have hask := asked rs ⟨fun _ => none, fun _ => ∅⟩
  generalize (Held.run (⟨fun _ => none, fun _ => ∅⟩ : Held I D) rs).1 = hm at hask ⊢
  have hg := gone rs' hm hn
  constructor
  · cases hw : (hm.run rs').1.writer p with
    | none => rfl
    | some d =>
      exfalso
      refine (hg d).1 ?_ hw
      by_cases hx : hm.writer p = some d
      · rcases (hask d).1 hx with hy | ⟨k, hk⟩
        · cases hy
        · exact Or.inl ((hd d k).2 hk)
      · exact Or.inr hx
  · rw [Finset.eq_empty_iff_forall_notMem]
    intro d
    refine (hg d).2 ?_
    by_cases hx : d ∈ hm.readers p
    · rcases (hask d).2 hx with hy | ⟨k, hk⟩
      · simp at hy
      · exact Or.inl ((hd d k).1 hk)
    · exact Or.inr hx

end Nodit.Locks
