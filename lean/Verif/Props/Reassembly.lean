import Verif.Props.Replicas
/-!
# C135: putting a message together from its fragments

A receiver collects the fragments (intervals) of a message in a `NoditSet` with `insert_merge_touching_or_overlapping`. The network between it and
the sender may lose fragments, deliver them several times and in any order. The receiver reports what is missing with
`gaps_trimmed(the whole message)`, as often and whenever it likes, and the sender answers reports - perhaps old ones - by sending these intervals.
-/
set_option linter.unusedSectionVars false
namespace Nodit.Reassembly
open Spec PointType InclusiveInterval Replicas

variable {I K Q : Type} [PointType I] [IntervalType I K] [IntervalType I Q] [LawfulPoint I] [LawfulInterval I K]

/-- what happens: the sender sends a fragment, the network delivers some fragment sent before (again, perhaps), the receiver reports what is missing,
the sender sends what some report asks for. A client, models no lines of `/repo`. -/
inductive Event (K : Type) where
  | send (k : K)
  | deliver (i : Nat)
  | report
  | resend (j : Nat)

/-- the receiver's set, the fragments sent so far, the reports made so far. A client, models no lines of `/repo`. -/
structure State (K : Type) where
  received : NoditSet K
  sent : List K
  reports : List (List K)

/-- One event; `q` is the whole message. A client, models no lines of `/repo`; for the calls see `nodit/set.rs`. -/
def step (q : Q) (st : State K) : Event K → Res (State K)
  | .send k => pure { st with sent := st.sent ++ [k] }
  | .deliver i =>
    match st.sent[i]? with
    | none => pure st
    | some k => do
      let (s, _) ← st.received.insertMergeTouchingOrOverlapping (I := I) k
      pure { st with received := s }
  | .report => do
    let gaps ← st.received.gapsTrimmed (I := I) q
    pure { st with reports := st.reports ++ [gaps] }
  | .resend j => pure { st with sent := st.sent ++ (st.reports[j]?).getD [] }

/-- any number of events. A client, models no lines of `/repo`. -/
def run (q : Q) (st : State K) : List (Event K) → Res (State K)
  | [] => pure st
  | e :: es => do run q (← step (I := I) q st e) es

/-- nothing sent yet. A client, models no lines of `/repo`. -/
def initial : State K := ⟨NoditSet.new, [], []⟩

/-- what is true all along -/
structure Inv (q : Q) (st : State K) : Prop where
  knows : ∃ S : Set K, KnowsSet (I := I) st.received S
  sentValid : ∀ k ∈ st.sent, Valid (I := I) k
  only : ∀ p : I, p ∈ points st.received → ∃ k ∈ st.sent, Mem p k
  reportsValid : ∀ gs ∈ st.reports, ∀ g ∈ gs, Valid (I := I) g
  asks : ∀ gs ∈ st.reports, ∀ p : I, Mem p q → p ∈ points st.received ∨ ∃ g ∈ gs, Mem p g

theorem gapsTrimmed_points {s : NoditSet K} (h : Ascending (I := I) s.iter) {q : Q} (hq : Valid (I := I) q) :
    ∃ gs, s.gapsTrimmed (I := I) q = .ok gs ∧ (∀ g ∈ gs, Valid (I := I) g) ∧
      ∀ p : I, (∃ g ∈ gs, Mem p g) ↔ Mem p q ∧ p ∉ points s := by
  obtain ⟨gs, h1, h2, h3⟩ := (C22_set_queries h q hq (start q)).2.2.2.2.2.1
  refine ⟨gs, h1, h2.1, fun p => ?_⟩
  constructor
  · rintro ⟨g, hg, hp⟩
    obtain ⟨i, rfl, j, hj, hd⟩ := (h3 g).1 hg
    have := (hd.2 p).1 (mem_ofInterval.1 hp)
    exact ⟨this.2, hj.2.1 p this.1⟩
  · rintro ⟨hp, hn⟩
    obtain ⟨r, -, e1, e2⟩ := (C22_set_queries h q hq p).2.2.1
    cases r with
    | ok k => exact absurd ⟨k, (e1 k).1 rfl⟩ hn
    | error g =>
      obtain ⟨i, rfl, hm, hpi⟩ := e2 g rfl
      have hqv := valid_iff.1 hq
      have hiv := valid_iff.1 hm.1
      have hd : Describes (⟨max i.start (start q), min i.stop (stop q)⟩ : Interval I) (fun p => Mem p i ∧ Mem p q) := by
        refine (describes_of ?_ ?_).2 rfl
        · have a := hpi.1.trans hpi.2
          exact (max_le hpi.1 hp.1).trans (le_min hpi.2 hp.2)
        · intro x; simp only [Mem, max_le_iff, le_min_iff]
          change (i.start ≤ x ∧ x ≤ i.stop) ∧ _ ↔ _
          tauto
      refine ⟨_, (h3 _).2 ⟨_, rfl, i, hm, hd⟩, mem_ofInterval.2 ((hd.2 p).2 ⟨hpi, hp⟩)⟩

theorem insert_points {s : NoditSet K} {S : Set K} (h : KnowsSet (I := I) s S) {k : K} (hk : Valid (I := I) k) :
    ∃ s' r, s.insertMergeTouchingOrOverlapping (I := I) k = .ok (s', r) ∧ KnowsSet (I := I) s' (S ∪ {k}) ∧
      ∀ p : I, p ∈ points s' ↔ p ∈ points s ∨ Mem p k := by
  obtain ⟨s', h1, h2⟩ := h.union [k] (by simpa using hk) (T := {k}) (by simp)
  cases hi : s.insertMergeTouchingOrOverlapping (I := I) k with
  | error e => simp [unionLoop, hi, bind, Except.bind] at h1
  | ok x =>
    obtain ⟨a, r⟩ := x
    simp only [unionLoop, hi, bind, Except.bind, pure, Except.pure, Except.ok.injEq] at h1
    subst h1
    refine ⟨a, r, rfl, h2, fun p => ?_⟩
    obtain ⟨-, -, e⟩ := h
    obtain ⟨-, -, e'⟩ := h2
    rw [e, e']
    simp only [Set.mem_ofPred_eq, Set.mem_union, Set.mem_singleton_iff, or_and_right, exists_or, exists_eq_left]

theorem Inv.step {q : Q} (hq : Valid (I := I) q) {st : State K} (h : Inv (I := I) q st) (e : Event K) (he : ∀ k, e = .send k → Valid (I := I) k) :
    ∃ st', Reassembly.step (I := I) q st e = .ok st' ∧ Inv (I := I) q st' ∧ (∀ p : I, p ∈ points st.received → p ∈ points st'.received) ∧
      (∀ gs ∈ st.reports, gs ∈ st'.reports) := by
  obtain ⟨⟨S, hS⟩, h1, h2, h3, h4⟩ := h
  cases e with
  | send k =>
    refine ⟨_, rfl, ⟨⟨S, hS⟩, ?_, ?_, h3, h4⟩, fun _ h => h, fun _ h => h⟩
    · intro x hx
      rcases List.mem_append.1 hx with hx | hx
      · exact h1 x hx
      · rw [List.mem_singleton.1 hx]; exact he k rfl
    · intro p hp
      obtain ⟨x, hx, hp⟩ := h2 p hp
      exact ⟨x, List.mem_append_left _ hx, hp⟩
  | deliver i =>
    cases hi : st.sent[i]? with
    | none => exact ⟨st, by simp only [Reassembly.step, hi]; rfl, ⟨⟨S, hS⟩, h1, h2, h3, h4⟩, fun _ h => h, fun _ h => h⟩
    | some k =>
      have hk := List.mem_of_getElem? hi
      obtain ⟨s', r, e1, e2, e3⟩ := insert_points hS (h1 k hk)
      refine ⟨{ st with received := s' }, by simp only [Reassembly.step, hi, e1, bind, Except.bind, pure, Except.pure], ⟨⟨_, e2⟩, h1, ?_, h3, ?_⟩, fun p hp => (e3 p).2 (Or.inl hp), fun _ h => h⟩
      · intro p hp
        rcases (e3 p).1 hp with hp | hp
        · exact h2 p hp
        · exact ⟨k, hk, hp⟩
      · intro gs hgs p hp
        exact (h4 gs hgs p hp).imp_left fun h => (e3 p).2 (Or.inl h)
  | report =>
    obtain ⟨gs, e1, e2, e3⟩ := gapsTrimmed_points hS.ascending hq
    unfold Reassembly.step
    simp only [e1, bind, Except.bind, pure, Except.pure]
    refine ⟨_, rfl, ⟨⟨S, hS⟩, h1, h2, ?_, ?_⟩, fun _ h => h, fun _ h => List.mem_append_left _ h⟩
    · intro g hg
      rcases List.mem_append.1 hg with hg | hg
      · exact h3 g hg
      · rw [List.mem_singleton.1 hg]; exact e2
    · intro g hg p hp
      rcases List.mem_append.1 hg with hg | hg
      · exact h4 g hg p hp
      · rw [List.mem_singleton.1 hg]
        by_cases hr : p ∈ points st.received
        · exact Or.inl hr
        · exact Or.inr ((e3 p).2 ⟨hp, hr⟩)
  | resend j =>
    refine ⟨_, rfl, ⟨⟨S, hS⟩, ?_, ?_, h3, h4⟩, fun _ h => h, fun _ h => h⟩
    · intro x hx
      rcases List.mem_append.1 hx with hx | hx
      · exact h1 x hx
      · cases hj : st.reports[j]? with
        | none => rw [hj] at hx; exact absurd hx (by simp)
        | some gs => rw [hj] at hx; exact h3 gs (List.mem_of_getElem? hj) x hx
    · intro p hp
      obtain ⟨x, hx, hp⟩ := h2 p hp
      exact ⟨x, List.mem_append_left _ hx, hp⟩

theorem Inv.run {q : Q} (hq : Valid (I := I) q) {st : State K} (h : Inv (I := I) q st) (es : List (Event K))
    (hs : ∀ k, .send k ∈ es → Valid (I := I) k) :
    ∃ st', Reassembly.run (I := I) q st es = .ok st' ∧ Inv (I := I) q st' ∧ (∀ p : I, p ∈ points st.received → p ∈ points st'.received) ∧
      (∀ gs ∈ st.reports, gs ∈ st'.reports) := by
  induction es generalizing st with
  | nil => exact ⟨st, rfl, h, fun _ h => h, fun _ h => h⟩
  | cons e es ih =>
    obtain ⟨st1, e1, e2, e3, e4⟩ := h.step hq e (fun k hk => hs k (by simp [hk]))
    obtain ⟨st2, f1, f2, f3, f4⟩ := ih e2 (fun k hk => hs k (by simp [hk]))
    exact ⟨st2, by rw [Reassembly.run, e1]; exact f1, f2, fun p hp => f3 p (e3 p hp), fun g hg => f4 g (e4 g hg)⟩

theorem inv_initial (q : Q) : Inv (I := I) q (initial : State K) where
  knows := ⟨∅, [], rfl, by ext p; simp [initial, points, NoditSet.new, NoditSet.iter, NoditMap.new, NoditMap.iter]⟩
  sentValid := by simp [initial]
  only := by intro p; simp [initial, points, NoditSet.new, NoditSet.iter, NoditMap.new, NoditMap.iter]
  reportsValid := by simp [initial]
  asks := by simp [initial]

/-- **C135**: whatever the network does, nothing panics, and the receiver has only points of fragments that were sent -/
theorem C135_sound {q : Q} (hq : Valid (I := I) q) (es : List (Event K)) (hs : ∀ k, .send k ∈ es → Valid (I := I) k) :
    ∃ st, run (I := I) q initial es = .ok st ∧ ∀ p : I, ∃ b, st.received.containsPoint p = .ok b ∧ (b = true → ∃ k ∈ st.sent, Mem p k) := by
  obtain ⟨st, h1, h2, -⟩ := (inv_initial q).run hq es hs
  refine ⟨st, h1, fun p => ?_⟩
  obtain ⟨S, hS⟩ := h2.knows
  obtain ⟨b, e1, e2⟩ := (C22_set_queries hS.ascending q hq p).2.2.2.1
  exact ⟨b, e1, fun hb => h2.only p (e2.1 hb)⟩

/-- **C135**: a delivered fragment has arrived completely, and nothing else has changed -/
theorem C135_delivered {q : Q} (hq : Valid (I := I) q) (es : List (Event K)) (hs : ∀ k, .send k ∈ es → Valid (I := I) k) {st : State K}
    (h : run (I := I) q initial es = .ok st) {i : Nat} {k : K} (hi : st.sent[i]? = some k) :
    ∃ st', step (I := I) q st (.deliver i) = .ok st' ∧ st'.received.containsInterval (I := I) k = .ok true ∧
      ∀ p : I, ¬ Mem p k → st'.received.containsPoint p = st.received.containsPoint p := by
  obtain ⟨st0, h1, h2, -⟩ := (inv_initial q).run hq es hs
  rw [h] at h1; cases h1
  obtain ⟨S, hS⟩ := h2.knows
  have hk := h2.sentValid k (List.mem_of_getElem? hi)
  obtain ⟨s', r, e1, e2, e3⟩ := insert_points hS hk
  refine ⟨{ st with received := s' }, by simp only [Reassembly.step, hi, e1, bind, Except.bind, pure, Except.pure], ?_, fun p hp => ?_⟩
  · obtain ⟨b, f1, f2⟩ := (C22_set_queries e2.ascending k hk (start k)).2.2.2.2.2.2
    rw [f1, f2.2 fun p hp => (e3 p).2 (Or.inr hp)]
  · obtain ⟨b, f1, f2⟩ := (C22_set_queries e2.ascending k hk p).2.2.2.1
    obtain ⟨b', f1', f2'⟩ := (C22_set_queries hS.ascending k hk p).2.2.2.1
    rw [f1, f1']
    have : b = true ↔ b' = true := f2.trans (((e3 p).trans (or_iff_left hp)).trans f2'.symm)
    cases b <;> cases b' <;> simp_all

/-- **C135**: a report asks for exactly the points of the message that are missing when it is made -/
theorem C135_report {q : Q} (hq : Valid (I := I) q) (es : List (Event K)) (hs : ∀ k, .send k ∈ es → Valid (I := I) k) {st : State K}
    (h : run (I := I) q initial es = .ok st) :
    ∃ gs, st.received.gapsTrimmed (I := I) q = .ok gs ∧
      ∀ p : I, (∃ g ∈ gs, Mem p g) ↔ Mem p q ∧ st.received.containsPoint p = .ok false := by
  obtain ⟨st', h1, h2, -⟩ := (inv_initial q).run hq es hs
  rw [h] at h1; cases h1
  obtain ⟨S, hS⟩ := h2.knows
  obtain ⟨gs, e1, -, e3⟩ := gapsTrimmed_points hS.ascending hq
  refine ⟨gs, e1, fun p => ?_⟩
  rw [e3]
  obtain ⟨b, f1, f2⟩ := (C22_set_queries hS.ascending q hq p).2.2.2.1
  rw [f1]
  refine and_congr_right fun _ => ?_
  cases b with
  | false => exact iff_of_true (fun hp => Bool.noConfusion (f2.2 hp)) rfl
  | true => exact iff_of_false (fun hn => hn (f2.1 rfl)) (by simp)

/-- **C135**: if all the intervals some report asked for - the last one or any one before - have arrived, in whatever pieces and by whatever way,
the message is complete and there is nothing more to report; if not, the next report is not empty -/
theorem C135_complete {q : Q} (hq : Valid (I := I) q) (es : List (Event K)) (hs : ∀ k, .send k ∈ es → Valid (I := I) k) {st : State K}
    (h : run (I := I) q initial es = .ok st) :
    (∀ gs ∈ st.reports, (∀ g ∈ gs, st.received.containsInterval (I := I) g = .ok true) → st.received.containsInterval (I := I) q = .ok true) ∧
    (st.received.containsInterval (I := I) q = .ok true ↔ st.received.gapsTrimmed (I := I) q = .ok []) := by
  obtain ⟨st', h1, h2, -⟩ := (inv_initial q).run hq es hs
  rw [h] at h1; cases h1
  obtain ⟨S, hS⟩ := h2.knows
  have hc : ∀ {A : Type} [IntervalType I A] (x : A), Valid (I := I) x →
      (st.received.containsInterval (I := I) x = .ok true ↔ ∀ p : I, Mem p x → p ∈ points st.received) := by
    intro A _ x hx
    obtain ⟨b, f1, f2⟩ := (C22_set_queries hS.ascending x hx (start x)).2.2.2.2.2.2
    rw [f1]
    exact ⟨fun hb => f2.1 (by cases hb; rfl), fun hp => by rw [f2.2 hp]⟩
  obtain ⟨gs, e1, e2, e3⟩ := gapsTrimmed_points hS.ascending hq
  refine ⟨fun gs hgs hall => (hc q hq).2 fun p hp => ?_, ?_⟩
  · rcases h2.asks gs hgs p hp with hr | ⟨g, hg, hpg⟩
    · exact hr
    · exact (hc g (h2.reportsValid gs hgs g hg)).1 (hall g hg) p hpg
  · rw [hc q hq, e1, Except.ok.injEq]
    constructor
    · intro hall
      by_contra hne
      obtain ⟨g, hg⟩ := List.exists_mem_of_ne_nil gs hne
      obtain ⟨p, hp⟩ := e2 g hg
      obtain ⟨h3, h4⟩ := (e3 p).1 ⟨g, hg, hp⟩
      exact h4 (hall p h3)
    · rintro rfl p hp
      by_contra hn
      obtain ⟨g, hg, -⟩ := (e3 p).2 ⟨hp, hn⟩
      cases hg

theorem step_sent {q : Q} {st st' : State K} {e : Event K} (h : step (I := I) q st e = .ok st') {i : Nat} {k : K} (hi : st.sent[i]? = some k) :
    st'.sent[i]? = some k := by
  have happ : ∀ l : List K, (st.sent ++ l)[i]? = some k := fun l => by
    rw [List.getElem?_append_left (List.getElem?_eq_some_iff.1 hi).1, hi]
  cases e with
  | send x => cases h; exact happ _
  | resend j => cases h; exact happ _
  | report =>
    unfold step at h
    cases hg : st.received.gapsTrimmed (I := I) q with
    | error e => simp [hg, bind, Except.bind] at h
    | ok gs =>
      simp only [hg, bind, Except.bind, pure, Except.pure, Except.ok.injEq] at h
      subst h; exact hi
  | deliver n =>
    cases hn : st.sent[n]? with
    | none => simp only [step, hn] at h; cases h; exact hi
    | some x =>
      simp only [step, hn] at h
      cases hg : st.received.insertMergeTouchingOrOverlapping (I := I) x with
      | error e => simp [hg, bind, Except.bind] at h
      | ok r =>
        simp only [hg, bind, Except.bind, pure, Except.pure, Except.ok.injEq] at h
        subst h; exact hi

theorem delivered_points {q : Q} (hq : Valid (I := I) q) {st : State K} (h : Inv (I := I) q st) (es : List (Event K))
    (hs : ∀ k, .send k ∈ es → Valid (I := I) k) {i : Nat} {k : K} (hi : st.sent[i]? = some k) (hd : .deliver i ∈ es) :
    ∃ st', run (I := I) q st es = .ok st' ∧ ∀ p : I, Mem p k → p ∈ points st'.received := by
  induction es generalizing st with
  | nil => cases hd
  | cons e es ih =>
    obtain ⟨st1, e1, e2, -, -⟩ := h.step hq e (fun k hk => hs k (by simp [hk]))
    by_cases he : e = .deliver i
    · subst he
      obtain ⟨st2, f1, f2, f3, -⟩ := e2.run hq es (fun k hk => hs k (by simp [hk]))
      refine ⟨st2, by rw [run, e1]; exact f1, fun p hp => f3 p ?_⟩
      obtain ⟨S, hS⟩ := h.knows
      obtain ⟨s', r, g1, -, g3⟩ := insert_points hS (h.sentValid k (List.mem_of_getElem? hi))
      simp only [step, hi, g1, bind, Except.bind, pure, Except.pure, Except.ok.injEq] at e1
      subst e1
      exact (g3 p).2 (Or.inr hp)
    · obtain ⟨st2, f1, f2⟩ := ih e2 (fun k hk => hs k (by simp [hk])) (step_sent e1 hi) (by
        rcases List.mem_cons.1 hd with h | h
        · exact absurd h.symm he
        · exact h)
      exact ⟨st2, by rw [run, e1]; exact f1, f2⟩

theorem run_append {q : Q} (es es' : List (Event K)) {a b : State K} (h : run (I := I) q a es = .ok b) :
    run (I := I) q a (es ++ es') = run (I := I) q b es' := by
  induction es generalizing a with
  | nil => cases h; rfl
  | cons e es ih =>
    rw [List.cons_append, run]
    rw [run] at h
    cases he : step (I := I) q a e with
    | error x => rw [he] at h; cases h
    | ok c => rw [he] at h; exact ih h

/-- **C135**: if the sender answers some report, however old, and each fragment of the answer is delivered at least once - in any order, with anything
else happening in between - then the message is complete -/
theorem C135_answered {q : Q} (hq : Valid (I := I) q) (es es' : List (Event K)) (hs : ∀ k, .send k ∈ es ++ es' → Valid (I := I) k)
    {st : State K} (h : run (I := I) q initial es = .ok st) {j : Nat} {gs : List K} (hj : st.reports[j]? = some gs)
    (hd : ∀ n < gs.length, .deliver (st.sent.length + n) ∈ es') :
    ∃ st', run (I := I) q initial (es ++ .resend j :: es') = .ok st' ∧ st'.received.containsInterval (I := I) q = .ok true := by
  obtain ⟨st0, h1, h2, -⟩ := (inv_initial q).run hq es (fun k hk => hs k (by simp [hk]))
  rw [h] at h1; cases h1
  obtain ⟨st1, e1, e2, -, e4⟩ := h2.step hq (.resend j) (by simp)
  obtain ⟨st2, f1, f2, f3, f4⟩ := e2.run hq es' (fun k hk => hs k (by simp [hk]))
  have hrun : run (I := I) q initial (es ++ .resend j :: es') = .ok st2 := by
    rw [run_append es _ h, run, e1]; exact f1
  refine ⟨st2, hrun, ?_⟩
  refine (C135_complete hq (es ++ .resend j :: es') (fun k hk => hs k (by simpa using hk)) hrun).1 gs
    (f4 gs (e4 gs (List.mem_of_getElem? hj))) fun g hg => ?_
  obtain ⟨S, hS⟩ := f2.knows
  obtain ⟨b, a1, a2⟩ := (C22_set_queries hS.ascending g (h2.reportsValid gs (List.mem_of_getElem? hj) g hg) (start g)).2.2.2.2.2.2
  rw [a1, a2.2]
  obtain ⟨n, hn, rfl⟩ := List.mem_iff_getElem.1 hg
  have hi : st1.sent[st.sent.length + n]? = some gs[n] := by
    simp only [step, hj, pure, Except.pure, Except.ok.injEq] at e1
    subst e1
    simp [hn]
  obtain ⟨st3, b1, b2⟩ := delivered_points hq e2 es' (fun k hk => hs k (by simp [hk])) hi (hd n hn)
  rw [f1] at b1; cases b1
  exact b2

/-- **C135**: what has arrived stays: an interval that has arrived completely has arrived completely after any further events -/
theorem C135_monotone {q : Q} (hq : Valid (I := I) q) (es es' : List (Event K)) (hs : ∀ k, .send k ∈ es ++ es' → Valid (I := I) k)
    {st : State K} (h : run (I := I) q initial es = .ok st) {x : Interval I} (hx : Valid x)
    (hc : st.received.containsInterval (I := I) x = .ok true) :
    ∃ st', run (I := I) q st es' = .ok st' ∧ run (I := I) q initial (es ++ es') = .ok st' ∧ st'.received.containsInterval (I := I) x = .ok true := by
  obtain ⟨st0, h1, h2, -⟩ := (inv_initial q).run hq es (fun k hk => hs k (by simp [hk]))
  rw [h] at h1; cases h1
  obtain ⟨st', f1, f2, f3, -⟩ := h2.run hq es' (fun k hk => hs k (by simp [hk]))
  obtain ⟨S, hS⟩ := h2.knows
  obtain ⟨S', hS'⟩ := f2.knows
  refine ⟨st', f1, ?_, ?_⟩
  · rw [run_append es _ h, f1]
  · obtain ⟨b, e1, e2⟩ := (C22_set_queries hS.ascending x hx (start x)).2.2.2.2.2.2
    rw [e1] at hc; cases hc
    obtain ⟨b, g1, g2⟩ := (C22_set_queries hS'.ascending x hx (start x)).2.2.2.2.2.2
    rw [g1, g2.2 fun p hp => f3 p (e2.1 rfl p hp)]

/-- **C135**: acknowledging the beginning: `get_at_point(a)` with the first point `a` gives an interval that ends at the last point up to which
everything from `a` on has arrived, and an error if `a` is missing -/
theorem C135_acknowledge {q : Q} (hq : Valid (I := I) q) (es : List (Event K)) (hs : ∀ k, .send k ∈ es → Valid (I := I) k) {st : State K}
    (h : run (I := I) q initial es = .ok st) (a : I) :
    (st.received.containsPoint a = .ok false ∧ ∃ g, st.received.getAtPoint a = .ok (.error g)) ∨
    ∃ k, st.received.getAtPoint a = .ok (.ok k) ∧ a ≤ stop k ∧
      ∀ p : I, a ≤ p → (p ≤ stop k ↔ ∀ x, a ≤ x → x ≤ p → st.received.containsPoint x = .ok true) := by
  obtain ⟨st0, h1, h2, -⟩ := (inv_initial q).run hq es hs
  rw [h] at h1; cases h1
  obtain ⟨S, hS⟩ := h2.knows
  have hcp : ∀ x : I, ∃ b, st.received.containsPoint x = .ok b ∧ (b = true ↔ x ∈ points st.received) := fun x =>
    (C22_set_queries hS.ascending q hq x).2.2.2.1
  obtain ⟨r, e1, e2, e3⟩ := (C22_set_queries hS.ascending q hq a).2.2.1
  rw [e1]
  cases r with
  | error g =>
    left
    obtain ⟨b, f1, f2⟩ := hcp a
    refine ⟨?_, g, rfl⟩
    rw [f1]
    cases b with
    | false => rfl
    | true =>
      obtain ⟨k, hk⟩ := f2.1 rfl
      exact absurd ((e2 k).2 hk) (by simp)
  | ok k =>
    right
    obtain ⟨hk, hak⟩ := (e2 k).1 rfl
    refine ⟨k, rfl, hak.2, fun p hp => ?_⟩
    have hcov : ∀ x : I, st.received.containsPoint x = .ok true ↔ x ∈ points st.received := by
      intro x
      obtain ⟨b, f1, f2⟩ := hcp x
      rw [f1, ← f2, Except.ok.injEq]
    simp only [hcov]
    constructor
    · intro hle x h3 h4
      exact ⟨k, hk, hak.1.trans h3, h4.trans hle⟩
    · intro hall
      by_contra hn
      obtain ⟨ks, hks, -⟩ := hS
      have hmax := (C52_set_intervals_are_maximal_runs _ (by
        intro op hop; obtain ⟨x, -, rfl⟩ := List.mem_map.1 hop; trivial) ⟨start k, stop k⟩).2 ⟨k, hks ▸ hk, rfl, rfl⟩
      rw [← hks] at hmax
      have := hmax.2.2 ⟨a, p⟩ (fun x hx => hall x hx.1 hx.2) ⟨a, hak, ⟨le_refl _, hp⟩⟩ p ⟨hp, le_refl _⟩
      exact hn this.2

end Nodit.Reassembly

namespace Nodit.Reassembly
open Spec PointType InclusiveInterval Replicas
variable {I Q : Type} [PointType I] [IntervalType I Q] [LawfulPoint I]

/-- **C135**: the order, the number and the division of the fragments do not matter: if the same points have arrived, the receiver's sets are equal -/
theorem C135_any_order {q : Q} (hq : Valid (I := I) q) (es es' : List (Event (Interval I))) (hs : ∀ k, .send k ∈ es → Valid k)
    (hs' : ∀ k, .send k ∈ es' → Valid k) {st st' : State (Interval I)}
    (h : run (I := I) q initial es = .ok st) (h' : run (I := I) q initial es' = .ok st')
    (heq : ∀ p : I, st.received.containsPoint p = st'.received.containsPoint p) : st.received = st'.received := by
  obtain ⟨st0, h1, h2, -⟩ := (inv_initial q).run hq es hs
  rw [h] at h1; cases h1
  obtain ⟨st0, h1', h2', -⟩ := (inv_initial q).run hq es' hs'
  rw [h'] at h1'; cases h1'
  obtain ⟨S, hS⟩ := h2.knows
  obtain ⟨S', hS'⟩ := h2'.knows
  have hp : (points st.received : Set I) = points st'.received := by
    ext p
    obtain ⟨b, f1, f2⟩ := (C22_set_queries hS.ascending q hq p).2.2.2.1
    obtain ⟨b', f1', f2'⟩ := (C22_set_queries hS'.ascending q hq p).2.2.2.1
    have := heq p
    rw [f1, f1', Except.ok.injEq] at this
    subst this
    exact f2.symm.trans f2'
  obtain ⟨ks, e, -⟩ := hS
  obtain ⟨ks', e', -⟩ := hS'
  rw [e, e'] at hp
  rw [e, e']
  exact C52_set_canonical _ _ (by intro op hop; obtain ⟨x, -, rfl⟩ := List.mem_map.1 hop; trivial)
    (by intro op hop; obtain ⟨x, -, rfl⟩ := List.mem_map.1 hop; trivial) hp

end Nodit.Reassembly
