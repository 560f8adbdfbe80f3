import Verif.CrashGq
import Verif.Props.GqditStore
import Verif.Props.Locality
/-!
# C97: clients of one `Gqdit` that keep to separate territories

A territory is a set of pairs of a point and an identifier: clients may be separated by points (time slots), by identifiers (rooms),
or by both.
-/
set_option linter.unusedSectionVars false
namespace Nodit
namespace Spec
variable {I K D : Type} [PointType I] [IntervalType I K]

/-- the history continued by a call -/
def GqHist.call (h : GqHist I K D) : GqOp I K D → GqHist I K D
  | .insert ids k => .insert h ids k
  | .cutWithIdentifiers ids q => .cutWithIdentifiers h ids q
  | .cutAllIdentifiers q => .cutAllIdentifiers h q

/-- the history continued by several calls -/
def GqHist.calls (h : GqHist I K D) (ops : List (GqOp I K D)) : GqHist I K D := ops.foldl GqHist.call h

/-- the call is about this identifier at this point -/
def GqOp.About : GqOp I K D → I → D → Prop
  | .insert ids k, p, d => Mem p k ∧ d ∈ ids
  | .cutWithIdentifiers ids q, p, d => Mem p q ∧ d ∈ ids
  | .cutAllIdentifiers q, p, _ => Mem p q
end Spec
open Spec PointType Gqdit
variable {I K D ι : Type} [PointType I] [IntervalType I K] [LawfulPoint I] [LawfulInterval I K] [DecidableEq D] [DecidableEq ι]

omit [LawfulPoint I] [LawfulInterval I K] [DecidableEq D] [DecidableEq ι] in
/-- a call changes only what it is about -/
theorem idsAt_call_other (h : GqHist I K D) {op : GqOp I K D} {p : I} {d : D} (ho : ¬ op.About p d) :
    d ∈ (h.call op).idsAt p ↔ d ∈ h.idsAt p := by
  cases op with
  | insert ids k =>
    simp only [GqOp.About, not_and] at ho
    simp only [GqHist.call, GqHist.idsAt]
    split_ifs with hp
    · simp [ho hp]
    · rfl
  | cutWithIdentifiers ids q =>
    simp only [GqOp.About, not_and] at ho
    simp only [GqHist.call, GqHist.idsAt]
    split_ifs with hp
    · simp [ho hp]
    · rfl
  | cutAllIdentifiers q =>
    simp only [GqOp.About] at ho
    simp only [GqHist.call, GqHist.idsAt, if_neg ho]

omit [LawfulPoint I] [LawfulInterval I K] [DecidableEq D] [DecidableEq ι] in
/-- what becomes of an identifier at a point depends on nothing else in the `Gqdit` -/
theorem idsAt_call_same {h h' : GqHist I K D} (op : GqOp I K D) {p : I} {d : D} (hh : d ∈ h.idsAt p ↔ d ∈ h'.idsAt p) :
    d ∈ (h.call op).idsAt p ↔ d ∈ (h'.call op).idsAt p := by
  cases op with
  | insert ids k =>
    simp only [GqHist.call, GqHist.idsAt]
    split_ifs with hp
    · simp [hh]
    · exact hh
  | cutWithIdentifiers ids q =>
    simp only [GqHist.call, GqHist.idsAt]
    split_ifs with hp
    · simp [hh]
    · exact hh
  | cutAllIdentifiers q =>
    simp only [GqHist.call, GqHist.idsAt]
    split_ifs with hp
    · simp
    · exact hh

omit [LawfulPoint I] [LawfulInterval I K] [DecidableEq D] in
theorem idsAt_own (territory : ι → I → D → Prop) (hsep : ∀ c c' p d, territory c p d → territory c' p d → c = c')
    (sched : List (ι × GqOp I K D)) (hw : ∀ x ∈ sched, ∀ p d, x.2.About p d → territory x.1 p d) (c : ι) {p : I} {d : D}
    (hc : territory c p d) {h h' : GqHist I K D} (hh : d ∈ h.idsAt p ↔ d ∈ h'.idsAt p) :
    d ∈ (h.calls (sched.map Prod.snd)).idsAt p ↔ d ∈ (h'.calls (own c sched)).idsAt p := by
  induction sched generalizing h h' with
  | nil => exact hh
  | cons x sched ih =>
    have hw' : ∀ x ∈ sched, ∀ p d, x.2.About p d → territory x.1 p d := fun y hy => hw y (List.mem_cons_of_mem _ hy)
    by_cases hx : x.1 = c
    · have e : own c (x :: sched) = x.2 :: own c sched := by simp [own, hx]
      rw [e]
      exact ih hw' (idsAt_call_same x.2 hh)
    · have e : own c (x :: sched) = own c sched := by simp [own, hx]
      rw [e]
      refine ih hw' ?_
      exact (idsAt_call_other h fun ha => hx (hsep _ _ p d (hw x List.mem_cons_self p d ha) hc)).trans hh

/-- **C97**: several clients share a `Gqdit`, every client making only calls about pairs of points and identifiers in its own territory,
and no two territories share a pair. Then for every schedule of their calls, and whatever history the `Gqdit` has, each client finds
each of its identifiers at exactly the points where it would be if the other clients did not exist. -/
theorem C97_clients_do_not_observe_each_other {h : GqHist I K D} (territory : ι → I → D → Prop)
    (hsep : ∀ c c' p d, territory c p d → territory c' p d → c = c')
    (sched : List (ι × GqOp I K D)) (hw : ∀ x ∈ sched, ∀ p d, x.2.About p d → territory x.1 p d) (c : ι) {shared alone : Gqdit K D}
    (hs : eval (h.calls (sched.map Prod.snd)) = .ok shared) (ha : eval (h.calls (own c sched)) = .ok alone) (p : I) :
    ∃ ids ids', shared.identifiersAtPoint p = .ok ids ∧ alone.identifiersAtPoint p = .ok ids' ∧
      ∀ d, territory c p d → (d ∈ ids ↔ d ∈ ids') :=
  ⟨_, _, C30_identifiers_at_point hs p, C30_identifiers_at_point ha p,
    fun _ hd => idsAt_own territory hsep sched hw c hd Iff.rfl⟩

/-- **C97**: and all schedules leave `Gqdit`s that compare equal. -/
theorem C97_all_schedules_agree [DecidableEq K] {h : GqHist I K D} (territory : ι → I → D → Prop)
    (hsep : ∀ c c' p d, territory c p d → territory c' p d → c = c')
    (sched sched' : List (ι × GqOp I K D)) (hw : ∀ x ∈ sched, ∀ p d, x.2.About p d → territory x.1 p d)
    (hw' : ∀ x ∈ sched', ∀ p d, x.2.About p d → territory x.1 p d) (heq : ∀ c, own c sched = own c sched')
    {g g' : Gqdit K D} (hg : eval (h.calls (sched.map Prod.snd)) = .ok g) (hg' : eval (h.calls (sched'.map Prod.snd)) = .ok g') :
    g.eq g' = true := by
  rw [C33_canonical hg hg']
  intro p
  rw [C30_identifiers_at_point hg, C30_identifiers_at_point hg']
  congr 1
  ext d
  by_cases hd : ∃ c, territory c p d
  · obtain ⟨c, hc⟩ := hd
    rw [idsAt_own territory hsep sched hw c hc Iff.rfl, idsAt_own territory hsep sched' hw' c hc Iff.rfl, heq]
  · have key : ∀ (sched : List (ι × GqOp I K D)) (h : GqHist I K D), (∀ x ∈ sched, ∀ p d, x.2.About p d → territory x.1 p d) →
        (d ∈ (h.calls (sched.map Prod.snd)).idsAt p ↔ d ∈ h.idsAt p) := by
      intro sched
      induction sched with
      | nil => exact fun _ _ => Iff.rfl
      | cons x sched ih =>
        intro h hw
        refine (ih (h.call x.2) fun y hy => hw y (List.mem_cons_of_mem _ hy)).trans ?_
        exact idsAt_call_other h fun ha => hd ⟨x.1, hw x List.mem_cons_self p d ha⟩
    rw [key sched h hw, key sched' h hw']

/-! ## the gap queries -/

/-- a history as a program -/
def prog : GqHist I K D → GqProg I K D
  | .new => .new
  | .insert g ids k => .insert (prog g) ids k
  | .cutWithIdentifiers g ids q => .cutWithIdentifiers (prog g) ids q
  | .cutAllIdentifiers g q => .cutAllIdentifiers (prog g) q
  | .append g other => .append (prog g) (prog other)

theorem evalProg_prog (h : GqHist I K D) : evalProg (prog h) = eval h := by
  induction h with
  | new => rfl
  | insert g ids k ih => simp only [prog, evalProg, eval, ih]
  | cutWithIdentifiers g ids q ih => simp only [prog, evalProg, eval, ih]
  | cutAllIdentifiers g q ih => simp only [prog, evalProg, eval, ih]
  | append g o ih1 ih2 => simp only [prog, evalProg, eval, ih1, ih2]

theorem prog_fine {h : GqHist I K D} (hb : ¬ h.Bad) : (prog h).Fine := by
  induction h with
  | new => trivial
  | insert g ids k ih => simp only [GqHist.Bad, not_or, not_not] at hb; exact ⟨ih hb.1, hb.2⟩
  | cutWithIdentifiers g ids q ih => simp only [GqHist.Bad, not_or, not_not] at hb; exact ⟨ih hb.1, hb.2⟩
  | cutAllIdentifiers g q ih => simp only [GqHist.Bad, not_or, not_not] at hb; exact ⟨ih hb.1, hb.2⟩
  | append g o ih1 ih2 => simp only [GqHist.Bad, not_or] at hb; exact ⟨ih1 hb.1, ih2 hb.2⟩

theorem prog_contents (h : GqHist I K D) (p : I) : (prog h).contents p = some (h.idsAt p) := by
  induction h with
  | new => rfl
  | insert g ids k ih =>
    simp only [prog, GqProg.contents, GqHist.idsAt, ih]
    split_ifs <;> simp
    ext; simp
  | cutWithIdentifiers g ids q ih =>
    simp only [prog, GqProg.contents, GqHist.idsAt, ih]
    split_ifs <;> simp
    ext; simp
  | cutAllIdentifiers g q ih =>
    simp only [prog, GqProg.contents, GqHist.idsAt, ih]
    split_ifs <;> simp
  | append g o ih1 ih2 =>
    simp only [prog, GqProg.contents, GqHist.idsAt, ih1, ih2]
    simp
    ext; simp

theorem not_bad_of_eval {h : GqHist I K D} {g : Gqdit K D} (hg : eval h = .ok g) : ¬ h.Bad := by
  rcases eval_rep h with ⟨-, he⟩ | ⟨hb, -⟩
  · rw [he] at hg; cases hg
  · exact hb

/-- the points of `q` in the listed gaps are those without a foreign identifier -/
theorem gaps_points {h : GqHist I K D} {g : Gqdit K D} (hg : eval h = .ok g) (d : D) {Q : Type} [IntervalType I Q] {q : Q} (hq : Valid q) :
    ∃ l l', g.gapsNoIdentifier q = .ok l ∧ g.gapsWithIdentifier d q = .ok l' ∧
      (∀ p, Mem p q → ((∃ k ∈ l, Mem p k) ↔ h.idsAt p = ∅)) ∧ (∀ p, Mem p q → ((∃ k ∈ l', Mem p k) ↔ ∀ x ∈ h.idsAt p, x = d)) := by
  have hf := prog_fine (not_bad_of_eval hg)
  obtain ⟨g1, l, e1, e2, -, -, e3, e4⟩ := C72_gaps_no_identifier hf hq
  obtain ⟨g2, l', f1, f2, -, -, f3, f4⟩ := C72_gaps_with_identifier hf d hq
  rw [evalProg_prog, hg] at e1 f1
  cases e1; cases f1
  simp only [prog_contents, Option.some.injEq] at e3 e4 f3 f4
  exact ⟨l, l', e2, f2, fun p hp => ⟨fun ⟨k, hk, hpk⟩ => e3 k hk p hpk, e4 p hp⟩,
    fun p hp => ⟨fun ⟨k, hk, hpk⟩ => f3 k hk p hpk _ rfl, fun hx => f4 p hp _ rfl hx⟩⟩

/-- **C97**: a client whose territory has all identifiers at the points of `q` gets the same points of `q` from `gaps_no_identifier(q)` and
`gaps_with_identifier(d, q)` as without the other clients. (The intervals themselves reach out of `q`, and so may differ there.) -/
theorem C97_gaps {Q : Type} [IntervalType I Q] {h : GqHist I K D} (territory : ι → I → D → Prop)
    (hsep : ∀ c c' p d, territory c p d → territory c' p d → c = c')
    (sched : List (ι × GqOp I K D)) (hw : ∀ x ∈ sched, ∀ p d, x.2.About p d → territory x.1 p d) (c : ι) {shared alone : Gqdit K D}
    (hs : eval (h.calls (sched.map Prod.snd)) = .ok shared) (ha : eval (h.calls (own c sched)) = .ok alone) (d : D) {q : Q} (hq : Valid q)
    (hc : ∀ p, Mem p q → ∀ x, territory c p x) :
    ∃ free free' mine mine', shared.gapsNoIdentifier q = .ok free ∧ alone.gapsNoIdentifier q = .ok free' ∧
      shared.gapsWithIdentifier d q = .ok mine ∧ alone.gapsWithIdentifier d q = .ok mine' ∧
      ∀ p, Mem p q → ((∃ k ∈ free, Mem p k) ↔ ∃ k ∈ free', Mem p k) ∧ ((∃ k ∈ mine, Mem p k) ↔ ∃ k ∈ mine', Mem p k) := by
  obtain ⟨l1, l2, h1, h2, h3, h4⟩ := gaps_points hs d hq
  obtain ⟨l1', l2', h1', h2', h3', h4'⟩ := gaps_points ha d hq
  refine ⟨l1, l1', l2, l2', h1, h1', h2, h2', fun p hp => ?_⟩
  have : (h.calls (sched.map Prod.snd)).idsAt p = (h.calls (own c sched)).idsAt p := by
    ext x; exact idsAt_own territory hsep sched hw c (hc p hp x) Iff.rfl
  rw [h3 p hp, h3' p hp, h4 p hp, h4' p hp, this]
  exact ⟨Iff.rfl, Iff.rfl⟩

/-! ## Instances -/
namespace Demo
/-- three clients -/
inductive Client where | a | b | c deriving DecidableEq

/-- one client has the points below 100, another the points from 100 on except for the identifier 9, a third the identifier 9 there -/
def territory : Client → U8 → Nat → Prop
  | .a, p, _ => p < u8 100
  | .b, p, d => u8 100 ≤ p ∧ d ≠ 9
  | .c, p, d => u8 100 ≤ p ∧ d = 9

theorem territories_apart : ∀ c c' p d, territory c p d → territory c' p d → c = c' := by
  intro c c' p d h h'
  cases c <;> cases c' <;> simp only [territory] at h h' <;> first | rfl | (exfalso; omega) | (exfalso; exact absurd h (not_lt.2 h'.1)) | (exfalso; exact absurd h' (not_lt.2 h.1))

/-- the clients' calls, interleaved -/
def gqSched : List (Client × GqOp U8 (Interval U8) Nat) :=
  [(.a, .insert {1, 9} (iv 10 99)), (.b, .insert {1, 2} (iv 100 120)), (.c, .insert {9} (iv 110 130)), (.a, .cutAllIdentifiers (iv 50 99)),
   (.b, .cutWithIdentifiers {2} (iv 115 255)), (.c, .cutWithIdentifiers {9} (iv 100 112)), (.a, .insert {4} (iv 90 99))]

theorem gqSched_within : ∀ x ∈ gqSched, ∀ p d, x.2.About p d → territory x.1 p d := by
  have lo : ∀ {a b p}, Mem p (iv a b) → u8 b < u8 100 → p < u8 100 := fun h hb => lt_of_le_of_lt h.2 hb
  have hi : ∀ {a b p}, Mem p (iv a b) → u8 100 ≤ u8 a → u8 100 ≤ p := fun h hb => le_trans hb h.1
  intro x hx p d ha
  simp only [gqSched, List.mem_cons, List.not_mem_nil, or_false] at hx
  rcases hx with rfl | rfl | rfl | rfl | rfl | rfl | rfl
  · exact lo ha.1 (by decide)
  · refine ⟨hi ha.1 (by decide), ?_⟩
    have := ha.2; rintro rfl; revert this; decide
  · exact ⟨hi ha.1 (by decide), by have := ha.2; simpa using this⟩
  · exact lo ha (by decide)
  · refine ⟨hi ha.1 (by decide), ?_⟩
    have := ha.2; rintro rfl; revert this; decide
  · exact ⟨hi ha.1 (by decide), by have := ha.2; simpa using this⟩
  · exact lo ha.1 (by decide)

/-- the shared `Gqdit`, and the one of the third client alone: they agree on where the identifier 9 is from 100 on -/
example : ∃ shared alone, eval (gh.calls (gqSched.map Prod.snd)) = .ok shared ∧ eval (gh.calls (own .c gqSched)) = .ok alone ∧
    shared.identifiersAtPoint (u8 112) = .ok {1, 2} ∧ alone.identifiersAtPoint (u8 112) = .ok ∅ ∧
    shared.identifiersAtPoint (u8 117) = .ok {1, 9} ∧ alone.identifiersAtPoint (u8 117) = .ok {9} :=
  ⟨_, _, rfl, rfl, by decide⟩
end Demo
end Nodit
