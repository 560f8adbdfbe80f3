import Verif.Props.Patch
import Mathlib.Logic.Relation
/-!
# C137: groups of connected intervals

A client inserts intervals with `insert_merge_overlapping` (or with `insert_merge_touching_or_overlapping`) and uses the map to find out which of
them belong together: two of them do if there is a chain of inserted intervals from one to the other in which each overlaps (or touches) the next.
-/
set_option linter.unusedSectionVars false
namespace Nodit.Groups
open Spec PointType InclusiveInterval NoditMap

variable {I K V : Type} [PointType I] [IntervalType I K] [LawfulPoint I] [LawfulInterval I K]

/-- The client: `for (k, v) in l { m.insert_merge_overlapping(k, v); }`, or, if `t`, the same with `insert_merge_touching_or_overlapping`. Models no
lines of `/repo`. -/
def collect (t : Bool) (m : NoditMap K V) : List (K × V) → Res (NoditMap K V)
  | [] => pure m
  | e :: l => do
    let (m, _) ← if t then m.insertMergeTouchingOrOverlapping (I := I) e.1 e.2 else m.insertMergeOverlapping (I := I) e.1 e.2
    collect t m l

/-- the intervals share a point, or, if `t`, touch -/
def Near (t : Bool) (a b : K) : Prop := Overlap (I := I) a b ∨ (t = true ∧ Touch (I := I) a b)

/-- there is a chain of inserted intervals from `x` to `y`, each of them near the next -/
def Linked (t : Bool) (l : List (K × V)) : K × V → K × V → Prop :=
  Relation.ReflTransGen fun x y => x ∈ l ∧ y ∈ l ∧ Near (I := I) t x.1 y.1

/-- the same point, or, if `t`, neighbouring points -/
def Joined (t : Bool) (p q : I) : Prop := p = q ∨ (t = true ∧ (up p = some q ∨ up q = some p))

theorem Joined.symm {t : Bool} {p q : I} (h : Joined t p q) : Joined t q p := by
  rcases h with h | ⟨h, h'⟩
  · exact Or.inl h.symm
  · exact Or.inr ⟨h, h'.symm⟩

theorem near_iff (t : Bool) {a b : K} (ha : Valid (I := I) a) (hb : Valid (I := I) b) :
    Near (I := I) t a b ↔ ∃ p q, Mem p a ∧ Mem q b ∧ Joined (I := I) t p q := by
  have ha' := valid_iff.1 ha
  have hb' := valid_iff.1 hb
  constructor
  · rintro (⟨p, h1, h2⟩ | ⟨ht, h⟩)
    · exact ⟨p, p, h1, h2, Or.inl rfl⟩
    · rcases (touch_iff ha' hb').1 h with h | h
      · exact ⟨stop a, start b, ⟨ha', le_refl _⟩, ⟨le_refl _, hb'⟩, Or.inr ⟨ht, Or.inl h⟩⟩
      · exact ⟨start a, stop b, ⟨le_refl _, ha'⟩, ⟨hb', le_refl _⟩, Or.inr ⟨ht, Or.inr h⟩⟩
  · rintro ⟨p, q, hp, hq, rfl | ⟨ht, h⟩⟩
    · exact Or.inl ⟨p, hp, hq⟩
    · by_cases ho : Overlap (I := I) a b
      · exact Or.inl ho
      · refine Or.inr ⟨ht, (touch_iff ha' hb').2 ?_⟩
        have hqa : ¬ Mem q a := fun hx => ho ⟨q, hx, hq⟩
        have hpb : ¬ Mem p b := fun hx => ho ⟨p, hp, hx⟩
        simp only [Mem] at hp hq hqa hpb
        rcases h with h | h
        · left
          obtain ⟨h1, h2⟩ := up_eq_some.1 h
          have e1 : p = stop a := by
            by_contra hne
            exact hqa ⟨hp.1.trans h1.le, h2 _ (lt_of_le_of_ne hp.2 hne)⟩
          have e2 : q = start b := by
            by_contra hne
            refine hpb ⟨?_, h1.le.trans hq.2⟩
            by_contra hx
            exact hne (le_antisymm (h2 _ (not_le.1 hx)) hq.1)
          rw [← e1, ← e2]; exact h
        · right
          obtain ⟨h1, h2⟩ := up_eq_some.1 h
          have e1 : q = stop b := by
            by_contra hne
            exact hpb ⟨hq.1.trans h1.le, h2 _ (lt_of_le_of_ne hq.2 hne)⟩
          have e2 : p = start a := by
            by_contra hne
            refine hqa ⟨?_, h1.le.trans hp.2⟩
            by_contra hx
            exact hne (le_antisymm (h2 _ (not_le.1 hx)) hp.1)
          rw [← e1, ← e2]; exact h

theorem near_symm (t : Bool) {a b : K} (ha : Valid (I := I) a) (hb : Valid (I := I) b) (h : Near (I := I) t a b) : Near (I := I) t b a := by
  obtain ⟨p, q, hp, hq, hj⟩ := (near_iff t ha hb).1 h
  exact (near_iff t hb ha).2 ⟨q, p, hq, hp, hj.symm⟩

/-- all points of `k` are points of `e` -/
def Within (k e : K) : Prop := ∀ p : I, Mem p k → Mem p e

structure Inv (t : Bool) (m : NoditMap K V) (l : List (K × V)) : Prop where
  wf : WF (I := I) m.iter
  apart : ∀ e ∈ m.iter, ∀ d ∈ m.iter, Near (I := I) t e.1 d.1 → e = d
  within : ∀ x ∈ l, ∃ e ∈ m.iter, Within (I := I) x.1 e.1
  linked : ∀ x ∈ l, ∀ y ∈ l, ∀ e ∈ m.iter, Within (I := I) x.1 e.1 → Within (I := I) y.1 e.1 → Linked (I := I) t l x y
  points : ∀ e ∈ m.iter, ∀ p : I, Mem p e.1 → ∃ x ∈ l, Mem p x.1
  last : ∀ e ∈ m.iter, ∃ l1 k l2, l = l1 ++ (k, e.2) :: l2 ∧ Within (I := I) k e.1 ∧ ∀ z ∈ l2, ¬ Within (I := I) z.1 e.1

theorem Linked.mono {t : Bool} {l l' : List (K × V)} (h : ∀ x ∈ l, x ∈ l') {x y : K × V} (hl : Linked (I := I) t l x y) : Linked (I := I) t l' x y :=
  Relation.ReflTransGen.mono (fun _ _ hx => ⟨h _ hx.1, h _ hx.2.1, hx.2.2⟩) x y hl

theorem Linked.symm {t : Bool} {l : List (K × V)} (hv : ∀ x ∈ l, Valid (I := I) x.1) {x y : K × V} (hl : Linked (I := I) t l x y) : Linked (I := I) t l y x := by
  induction hl with
  | refl => exact Relation.ReflTransGen.refl
  | tail _ hab ih => exact Relation.ReflTransGen.head ⟨hab.2.1, hab.1, near_symm t (hv _ hab.1) (hv _ hab.2.1) hab.2.2⟩ ih

theorem step_spec (t : Bool) {m : NoditMap K V} (h : WF (I := I) m.iter) {k : K} (hk : Valid (I := I) k) (v : V) :
    ∃ m' k', (if t then m.insertMergeTouchingOrOverlapping (I := I) k v else m.insertMergeOverlapping (I := I) k v) = .ok (m', k') ∧ WF (I := I) m'.iter ∧
      (∀ p : I, Mem p k' ↔ Mem p k ∨ ∃ e ∈ m.iter, Near (I := I) t e.1 k ∧ Mem p e.1) ∧
      ∀ e, e ∈ m'.iter ↔ (e ∈ m.iter ∧ ¬ Near (I := I) t e.1 k) ∨ e = (k', v) := by
  cases t with
  | true =>
    obtain ⟨m', k', h1, h2, h3, -, h4⟩ := C13_insert_merge_touching_or_overlapping h k hk v
    refine ⟨m', k', h1, h2, ?_, ?_⟩
    · intro p; rw [h3 p]; simp only [Near, true_and, or_comm]
    · intro e; rw [h4 e]; simp only [Near, true_and, or_comm]
  | false =>
    obtain ⟨m', k', h1, h2, h3, -, h4⟩ := C12_insert_merge_overlapping h k hk v
    refine ⟨m', k', h1, h2, ?_, ?_⟩
    · intro p; rw [h3 p]; simp only [Near, Bool.false_eq_true, false_and, or_false]
    · intro e; rw [h4 e]; simp only [Near, Bool.false_eq_true, false_and, or_false]

theorem Inv.step {t : Bool} {m : NoditMap K V} {l : List (K × V)} (hi : Inv (I := I) t m l) (hv : ∀ x ∈ l, Valid (I := I) x.1) {k : K} (hk : Valid (I := I) k) (v : V) :
    ∃ m' k', (if t then m.insertMergeTouchingOrOverlapping (I := I) k v else m.insertMergeOverlapping (I := I) k v) = .ok (m', k') ∧
      Inv (I := I) t m' (l ++ [(k, v)]) := by
  classical
  obtain ⟨m', k', h1, h2, h3, h4⟩ := step_spec t hi.wf hk v
  refine ⟨m', k', h1, ?_⟩
  have hev : ∀ e ∈ m.iter, Valid (I := I) e.1 := hi.wf.1
  have hk' : Valid (I := I) k' := by obtain ⟨p, hp⟩ := hk; exact ⟨p, (h3 p).2 (Or.inl hp)⟩
  have hk'mem : (k', v) ∈ m'.iter := (h4 _).2 (Or.inr rfl)
  have hv' : ∀ x ∈ l ++ [(k, v)], Valid (I := I) x.1 := by
    intro x hx
    rcases List.mem_append.1 hx with hx | hx
    · exact hv x hx
    · rw [List.mem_singleton.1 hx]; exact hk
  have hkk : Within (I := I) k k' := fun p hp => (h3 p).2 (Or.inl hp)
  -- an entry that stays is not near the new one
  have far : ∀ e ∈ m.iter, ¬ Near (I := I) t e.1 k → ¬ Near (I := I) t e.1 k' := by
    intro e he hn hx
    obtain ⟨p, q, hp, hq, hj⟩ := (near_iff t (hev e he) hk').1 hx
    rcases (h3 q).1 hq with hq | ⟨d, hd, hdk, hqd⟩
    · exact hn ((near_iff t (hev e he) hk).2 ⟨p, q, hp, hq, hj⟩)
    · obtain rfl := hi.apart e he d hd ((near_iff t (hev e he) (hev d hd)).2 ⟨p, q, hp, hqd, hj⟩)
      exact hn hdk
  -- an inserted interval with a point in an old entry is within it
  have inside : ∀ x ∈ l, ∀ e ∈ m.iter, ∀ p : I, Mem p x.1 → Mem p e.1 → Within (I := I) x.1 e.1 := by
    intro x hx e he p hp hpe
    obtain ⟨d, hd, hxd⟩ := hi.within x hx
    obtain rfl := Patch.wf_unique hi.wf he hd ⟨p, hpe, hxd p hp⟩
    exact hxd
  have tok : ∀ x ∈ l ++ [(k, v)], Within (I := I) x.1 k' → Linked (I := I) t (l ++ [(k, v)]) x (k, v) := by
    intro x hx hxk
    rcases List.mem_append.1 hx with hx | hx
    · obtain ⟨e, he, hxe⟩ := hi.within x hx
      have hnear : Near (I := I) t e.1 k := by
        by_contra hn
        obtain ⟨p, hp⟩ := hv x hx
        exact far e he hn ((near_iff t (hev e he) hk').2 ⟨p, p, hxe p hp, hxk p hp, Or.inl rfl⟩)
      obtain ⟨p, q, hp, hq, hj⟩ := (near_iff t (hev e he) hk).1 hnear
      obtain ⟨y, hy, hpy⟩ := hi.points e he p hp
      have h5 := hi.linked x hx y hy e he hxe (inside y hy e he p hpy hp)
      exact (h5.mono (fun z hz => by simp [hz])).tail ⟨by simp [hy], by simp, (near_iff t (hv y hy) hk).2 ⟨p, q, hpy, hq, hj⟩⟩
    · rw [List.mem_singleton.1 hx]; exact Relation.ReflTransGen.refl
  refine ⟨h2, ?_, ?_, ?_, ?_, ?_⟩
  · intro e he d hd hn
    rcases (h4 e).1 he with ⟨he, hne⟩ | rfl <;> rcases (h4 d).1 hd with ⟨hd, hnd⟩ | rfl
    · exact hi.apart e he d hd hn
    · exact absurd hn (far e he hne)
    · exact absurd (near_symm t hk' (hev d hd) hn) (far d hd hnd)
    · rfl
  · intro x hx
    rcases List.mem_append.1 hx with hx | hx
    · obtain ⟨e, he, hxe⟩ := hi.within x hx
      by_cases hn : Near (I := I) t e.1 k
      · exact ⟨_, hk'mem, fun p hp => (h3 p).2 (Or.inr ⟨e, he, hn, hxe p hp⟩)⟩
      · exact ⟨e, (h4 e).2 (Or.inl ⟨he, hn⟩), hxe⟩
    · rw [List.mem_singleton.1 hx]; exact ⟨_, hk'mem, hkk⟩
  · intro x hx y hy e he hxe hye
    rcases (h4 e).1 he with ⟨he, hne⟩ | rfl
    · have hnot : ∀ z ∈ l ++ [(k, v)], Within (I := I) z.1 e.1 → z ∈ l := by
        intro z hz hze
        rcases List.mem_append.1 hz with hz | hz
        · exact hz
        · rw [List.mem_singleton.1 hz] at hze
          obtain ⟨p, hp⟩ := hk
          exact absurd ((near_iff t (hev e he) ⟨p, hp⟩).2 ⟨p, p, hze p hp, hp, Or.inl rfl⟩) hne
      exact (hi.linked x (hnot x hx hxe) y (hnot y hy hye) e he hxe hye).mono (fun z hz => by simp [hz])
    · exact (tok x hx hxe).trans ((tok y hy hye).symm hv')
  · intro e he p hp
    rcases (h4 e).1 he with ⟨he, -⟩ | rfl
    · obtain ⟨x, hx, hpx⟩ := hi.points e he p hp
      exact ⟨x, by simp [hx], hpx⟩
    · rcases (h3 p).1 hp with hp | ⟨d, hd, -, hpd⟩
      · exact ⟨(k, v), by simp, hp⟩
      · obtain ⟨x, hx, hpx⟩ := hi.points d hd p hpd
        exact ⟨x, by simp [hx], hpx⟩
  · intro e he
    rcases (h4 e).1 he with ⟨he, hne⟩ | rfl
    · obtain ⟨l1, a, l2, e1, e2, e3⟩ := hi.last e he
      refine ⟨l1, a, l2 ++ [(k, v)], by rw [e1]; simp, e2, ?_⟩
      intro z hz hze
      rcases List.mem_append.1 hz with hz | hz
      · exact e3 z hz hze
      · rw [List.mem_singleton.1 hz] at hze
        obtain ⟨p, hp⟩ := hk
        exact absurd ((near_iff t (hev e he) ⟨p, hp⟩).2 ⟨p, p, hze p hp, hp, Or.inl rfl⟩) hne
    · exact ⟨l, k, [], rfl, hkk, by simp⟩

theorem collect_inv {t : Bool} {m : NoditMap K V} {l : List (K × V)} (hi : Inv (I := I) t m l) (l' : List (K × V))
    (hv : ∀ x ∈ l ++ l', Valid (I := I) x.1) : ∃ m', collect (I := I) t m l' = .ok m' ∧ Inv (I := I) t m' (l ++ l') := by
  induction l' generalizing m l with
  | nil => exact ⟨m, rfl, by simpa using hi⟩
  | cons e l' ih =>
    obtain ⟨m1, k', h1, h2⟩ := hi.step (fun x hx => hv x (by simp [hx])) (hv e (by simp)) e.2
    obtain ⟨m', h3, h4⟩ := ih h2 (by simpa using hv)
    refine ⟨m', ?_, by simpa using h4⟩
    cases t
    · simp only [Bool.false_eq_true, if_false] at h1
      simp only [collect, Bool.false_eq_true, if_false, h1, bind, Except.bind]
      exact h3
    · simp only [if_true] at h1
      simp only [collect, if_true, h1, bind, Except.bind]
      exact h3

theorem inv_new (t : Bool) : Inv (I := I) t (NoditMap.new : NoditMap K V) [] :=
  ⟨wf_new, by simp [NoditMap.iter, NoditMap.new], by simp, by simp, by simp [NoditMap.iter, NoditMap.new], by simp [NoditMap.iter, NoditMap.new]⟩

theorem Inv.iff_linked {t : Bool} {m : NoditMap K V} {l : List (K × V)} (hi : Inv (I := I) t m l) (hv : ∀ x ∈ l, Valid (I := I) x.1)
    {x y : K × V} (hx : x ∈ l) (hy : y ∈ l) {e : K × V} (he : e ∈ m.iter) (hxe : Within (I := I) x.1 e.1) :
    Within (I := I) y.1 e.1 ↔ Linked (I := I) t l x y := by
  constructor
  · exact hi.linked x hx y hy e he hxe
  · intro hl
    clear hy
    induction hl with
    | refl => exact hxe
    | @tail a b _ hab ih =>
      obtain ⟨ha, hb, hn⟩ := hab
      obtain ⟨d, hd, hbd⟩ := hi.within b hb
      obtain ⟨p, q, hp, hq, hj⟩ := (near_iff t (hv a ha) (hv b hb)).1 hn
      obtain rfl := hi.apart e he d hd ((near_iff t (hi.wf.1 e he) (hi.wf.1 d hd)).2 ⟨p, q, ih p hp, hbd q hq, hj⟩)
      exact hbd

theorem Inv.group {t : Bool} {m : NoditMap K V} {l : List (K × V)} (hi : Inv (I := I) t m l) (hv : ∀ x ∈ l, Valid (I := I) x.1)
    {x : K × V} (hx : x ∈ l) {e : K × V} (he : e ∈ m.iter) (hxe : Within (I := I) x.1 e.1) (p : I) :
    Mem p e.1 ↔ ∃ y ∈ l, Linked (I := I) t l x y ∧ Mem p y.1 := by
  classical
  constructor
  · intro hp
    obtain ⟨y, hy, hpy⟩ := hi.points e he p hp
    refine ⟨y, hy, (hi.iff_linked hv hx hy he hxe).1 ?_, hpy⟩
    obtain ⟨d, hd, hyd⟩ := hi.within y hy
    obtain rfl := Patch.wf_unique hi.wf he hd ⟨p, hp, hyd p hpy⟩
    exact hyd
  · rintro ⟨y, hy, hl, hpy⟩
    exact (hi.iff_linked hv hx hy he hxe).2 hl p hpy

theorem Inv.of_collect {t : Bool} {l : List (K × V)} (hv : ∀ x ∈ l, Valid (I := I) x.1) {m : NoditMap K V}
    (h : collect (I := I) t NoditMap.new l = .ok m) : Inv (I := I) t m l := by
  obtain ⟨m', h1, h2⟩ := collect_inv (inv_new t) l (by simpa using hv)
  rw [h] at h1; cases h1
  simpa using h2

/-- **C137**: nothing panics; each entry has exactly the points of one group of connected intervals, and each group has its entry -/
theorem C137_groups (t : Bool) (l : List (K × V)) (hv : ∀ x ∈ l, Valid (I := I) x.1) :
    ∃ m, collect (I := I) t NoditMap.new l = .ok m ∧ WF (I := I) m.iter ∧
      (∀ e ∈ m.iter, ∃ x ∈ l, ∀ p : I, Mem p e.1 ↔ ∃ y ∈ l, Linked (I := I) t l x y ∧ Mem p y.1) ∧
      ∀ x ∈ l, ∃ e ∈ m.iter, ∀ p : I, Mem p e.1 ↔ ∃ y ∈ l, Linked (I := I) t l x y ∧ Mem p y.1 := by
  obtain ⟨m, h1, hi⟩ := collect_inv (inv_new t) l (by simpa using hv)
  rw [List.nil_append] at hi
  refine ⟨m, h1, hi.wf, fun e he => ?_, fun x hx => ?_⟩
  · obtain ⟨l1, k, l2, e1, e2, -⟩ := hi.last e he
    have hx : (k, e.2) ∈ l := by rw [e1]; simp
    exact ⟨_, hx, hi.group hv hx he e2⟩
  · obtain ⟨e, he, hxe⟩ := hi.within x hx
    exact ⟨e, he, hi.group hv hx he hxe⟩

/-- **C137**: looking up any point of each tells whether two intervals belong together -/
theorem C137_lookup (t : Bool) (l : List (K × V)) (hv : ∀ x ∈ l, Valid (I := I) x.1) {m : NoditMap K V}
    (h : collect (I := I) t NoditMap.new l = .ok m) {x y : K × V} (hx : x ∈ l) (hy : y ∈ l) {p q : I} (hp : Mem p x.1) (hq : Mem q y.1) :
    m.getKeyValueAtPoint p = m.getKeyValueAtPoint q ↔ Linked (I := I) t l x y := by
  classical
  have hi := Inv.of_collect hv h
  obtain ⟨e, he, hxe⟩ := hi.within x hx
  obtain ⟨d, hd, hyd⟩ := hi.within y hy
  have look : ∀ (e : K × V) (p : I), e ∈ m.iter → Mem p e.1 → m.getKeyValueAtPoint p = .ok (.ok e) := by
    intro e p he hp
    obtain ⟨r, e1, e2, -⟩ := spec_getKeyValueAtPoint hi.wf p
    rw [e1, (e2 e).2 ⟨he, hp⟩]
  rw [look e p he (hxe p hp), look d q hd (hyd q hq), ← hi.iff_linked hv hx hy he hxe]
  constructor
  · intro heq; cases heq; exact hyd
  · intro hye
    obtain ⟨q, hq⟩ := hv y hy
    rw [Patch.wf_unique hi.wf he hd ⟨q, hye q hq, hyd q hq⟩]

/-- **C137**: the value at a point of a group is the one that was inserted last with an interval of the group -/
theorem C137_value (t : Bool) (l : List (K × V)) (hv : ∀ x ∈ l, Valid (I := I) x.1) {m : NoditMap K V}
    (h : collect (I := I) t NoditMap.new l = .ok m) {x : K × V} (hx : x ∈ l) {p : I} (hp : Mem p x.1) :
    ∃ l1 y l2, l = l1 ++ y :: l2 ∧ m.getAtPoint p = .ok (some y.2) ∧ Linked (I := I) t l x y ∧ ∀ z ∈ l2, ¬ Linked (I := I) t l x z := by
  have hi := Inv.of_collect hv h
  obtain ⟨e, he, hxe⟩ := hi.within x hx
  obtain ⟨l1, k, l2, e1, e2, e3⟩ := hi.last e he
  refine ⟨l1, (k, e.2), l2, e1, ?_, ?_, fun z hz hl => ?_⟩
  · obtain ⟨r, f1, f2⟩ := spec_getAtPoint hi.wf p
    rw [f1, (f2 e.2).2 ⟨e, he, hxe p hp, rfl⟩]
  · exact (hi.iff_linked hv hx (by rw [e1]; simp) he hxe).1 e2
  · exact e3 z hz ((hi.iff_linked hv hx (by rw [e1]; simp [hz]) he hxe).2 hl)

/-- **C137**: `len()` is the number of groups: it is the number of members of any choice of one interval from each group -/
theorem C137_len (t : Bool) (l : List (K × V)) (hv : ∀ x ∈ l, Valid (I := I) x.1) {m : NoditMap K V}
    (h : collect (I := I) t NoditMap.new l = .ok m) (r : List (K × V)) (hr : ∀ x ∈ r, x ∈ l)
    (h1 : r.Pairwise fun x y => ¬ Linked (I := I) t l x y) (h2 : ∀ x ∈ l, ∃ y ∈ r, Linked (I := I) t l x y) : m.len = r.length := by
  classical
  have hi := Inv.of_collect hv h
  have hex : ∀ x, x ∈ r → ∃ e ∈ m.iter, Within (I := I) x.1 e.1 := fun x hx => hi.within x (hr x hx)
  choose! f hf1 hf2 using hex
  have hnd : (r.map f).Nodup := by
    refine List.Pairwise.map f (fun _ _ hab => hab) (List.Pairwise.imp_of_mem ?_ h1)
    intro x y hx hy hn heq
    exact hn ((hi.iff_linked hv (hr x hx) (hr y hy) (hf1 x hx) (hf2 x hx)).1 (heq ▸ hf2 y hy))
  have hnd' : m.iter.Nodup := by
    refine List.Pairwise.imp_of_mem ?_ hi.wf.2
    intro a b ha hb hab heq
    obtain ⟨p, hp⟩ := hi.wf.1 a ha
    exact lt_irrefl p (hab p p hp (heq ▸ hp))
  have hperm : (r.map f).Perm m.iter := by
    refine (List.perm_ext_iff_of_nodup hnd hnd').2 fun e => ⟨fun he => ?_, fun he => ?_⟩
    · obtain ⟨x, hx, rfl⟩ := List.mem_map.1 he
      exact hf1 x hx
    · obtain ⟨l1, k, l2, e1, e2, -⟩ := hi.last e he
      have hk : (k, e.2) ∈ l := by rw [e1]; simp
      obtain ⟨y, hy, hl⟩ := h2 _ hk
      have hye := (hi.iff_linked hv hk (hr y hy) he e2).2 hl
      refine List.mem_map.2 ⟨y, hy, ?_⟩
      obtain ⟨q, hq⟩ := hv y (hr y hy)
      exact Patch.wf_unique hi.wf (hf1 y hy) he ⟨q, hf2 y hy q hq, hye q hq⟩
  have := hperm.length_eq
  rw [List.length_map] at this
  exact this.symm

theorem linked_keys {t : Bool} {l l' : List (K × V)} (hk : ∀ x ∈ l, ∃ x' ∈ l', x'.1 = x.1) {x y : K × V} (hl : Linked (I := I) t l x y)
    {x' : K × V} (hx' : x' ∈ l') (he : x'.1 = x.1) : ∃ y' ∈ l', y'.1 = y.1 ∧ Linked (I := I) t l' x' y' := by
  induction hl with
  | refl => exact ⟨x', hx', he, Relation.ReflTransGen.refl⟩
  | @tail a b _ hab ih =>
    obtain ⟨a', ha', e1, hl⟩ := ih
    obtain ⟨b', hb', e2⟩ := hk b hab.2.1
    exact ⟨b', hb', e2, hl.tail ⟨ha', hb', by rw [e1, e2]; exact hab.2.2⟩⟩

/-- **C137**: neither the order of the inserts nor repeating some of them matters for the groups (two maps of `Interval`s have the same intervals) -/
theorem C137_any_order (t : Bool) (l l' : List (Interval I × V)) (hv : ∀ x ∈ l, Valid (I := I) x.1)
    (hk : ∀ k, k ∈ l.map Prod.fst ↔ k ∈ l'.map Prod.fst) {m m' : NoditMap (Interval I) V}
    (h : collect (I := I) t NoditMap.new l = .ok m) (h' : collect (I := I) t NoditMap.new l' = .ok m') :
    m.iter.map Prod.fst = m'.iter.map Prod.fst := by
  have hk1 : ∀ x ∈ l, ∃ x' ∈ l', x'.1 = x.1 := fun x hx => by
    obtain ⟨x', h1, h2⟩ := List.mem_map.1 ((hk x.1).1 (List.mem_map.2 ⟨x, hx, rfl⟩)); exact ⟨x', h1, h2⟩
  have hk2 : ∀ x ∈ l', ∃ x' ∈ l, x'.1 = x.1 := fun x hx => by
    obtain ⟨x', h1, h2⟩ := List.mem_map.1 ((hk x.1).2 (List.mem_map.2 ⟨x, hx, rfl⟩)); exact ⟨x', h1, h2⟩
  have hv' : ∀ x ∈ l', Valid (I := I) x.1 := fun x hx => by obtain ⟨y, hy, e⟩ := hk2 x hx; rw [← e]; exact hv y hy
  have key : ∀ {l l' : List (Interval I × V)} {m m' : NoditMap (Interval I) V}, (∀ x ∈ l, Valid (I := I) x.1) → (∀ x ∈ l', Valid (I := I) x.1) →
      (∀ x ∈ l, ∃ x' ∈ l', x'.1 = x.1) → (∀ x ∈ l', ∃ x' ∈ l, x'.1 = x.1) → Inv (I := I) t m l → Inv (I := I) t m' l' →
      ∀ k, k ∈ m.iter.map Prod.fst → k ∈ m'.iter.map Prod.fst := by
    intro l l' m m' hv hv' hk1 hk2 hi hi' k hkm
    obtain ⟨e, he, rfl⟩ := List.mem_map.1 hkm
    obtain ⟨l1, k, l2, e1, e2, -⟩ := hi.last e he
    have hx : (k, e.2) ∈ l := by rw [e1]; simp
    obtain ⟨x', hx', ex⟩ := hk1 _ hx
    obtain ⟨d, hd, hxd⟩ := hi'.within x' hx'
    refine List.mem_map.2 ⟨d, hd, ?_⟩
    refine interval_eq_of_mem_iff (hi'.wf.1 d hd) fun p => ?_
    rw [hi.group hv hx he e2 p, hi'.group hv' hx' hd hxd p]
    constructor
    · rintro ⟨y, hy, hl, hp⟩
      obtain ⟨y', hy', ey, hl'⟩ := linked_keys hk2 hl hx ex.symm
      exact ⟨y', hy', hl', by rw [ey]; exact hp⟩
    · rintro ⟨y, hy, hl, hp⟩
      obtain ⟨y', hy', ey, hl'⟩ := linked_keys hk1 hl hx' ex
      exact ⟨y', hy', hl', by rw [ey]; exact hp⟩
  have hi := Inv.of_collect hv h
  have hi' := Inv.of_collect hv' h'
  have sorted : ∀ {m : NoditMap (Interval I) V}, WF (I := I) m.iter → (m.iter.map Prod.fst).Pairwise (fun a b => a.start < b.start) := by
    intro m hw
    refine List.Pairwise.map _ (fun _ _ hab => hab) (List.Pairwise.imp_of_mem ?_ hw.2)
    intro a b ha hb hab
    exact hab a.1.start b.1.start ⟨le_refl _, valid_iff.1 (hw.1 a ha)⟩ ⟨le_refl _, valid_iff.1 (hw.1 b hb)⟩
  refine List.Perm.eq_of_pairwise (le := fun a b => a.start < b.start) (fun a b _ _ h1 h2 => absurd (lt_trans h1 h2) (lt_irrefl _)) (sorted hi.wf) (sorted hi'.wf) ?_
  have nd : ∀ {m : NoditMap (Interval I) V}, WF (I := I) m.iter → (m.iter.map Prod.fst).Nodup := fun hw =>
    (sorted hw).imp fun hab heq => by rw [heq] at hab; exact lt_irrefl _ hab
  exact (List.perm_ext_iff_of_nodup (nd hi.wf) (nd hi'.wf)).2 fun k => ⟨key hv hv' hk1 hk2 hi hi' k, key hv' hv hk2 hk1 hi' hi k⟩

/-- The same client with a `NoditSet`. Models no lines of `/repo`. -/
def collectSet (t : Bool) (s : NoditSet K) : List K → Res (NoditSet K)
  | [] => pure s
  | k :: l => do
    let (s, _) ← if t then s.insertMergeTouchingOrOverlapping (I := I) k else s.insertMergeOverlapping (I := I) k
    collectSet t s l

theorem collectSet_eq (t : Bool) (s : NoditSet K) (ks : List K) :
    collectSet (I := I) t s ks = (collect (I := I) t s.inner (ks.map fun k => (k, ()))).map NoditSet.mk := by
  induction ks generalizing s with
  | nil => rfl
  | cons k ks ih =>
    cases t
    · simp only [collectSet, collect, List.map_cons, NoditSet.insertMergeOverlapping, Bool.false_eq_true, if_false, bind, Except.bind, pure, Except.pure]
      cases s.inner.insertMergeOverlapping (I := I) k () with
      | error e => rfl
      | ok r => exact ih ⟨r.1⟩
    · simp only [collectSet, collect, List.map_cons, NoditSet.insertMergeTouchingOrOverlapping, if_true, bind, Except.bind, pure, Except.pure]
      cases s.inner.insertMergeTouchingOrOverlapping (I := I) k () with
      | error e => rfl
      | ok r => exact ih ⟨r.1⟩

/-- **C137**: a `NoditSet`: nothing panics, each interval has exactly the points of one group, each group has its interval, and `get_at_point` tells
whether two inserted intervals belong together -/
theorem C137_set (t : Bool) (ks : List K) (hv : ∀ k ∈ ks, Valid (I := I) k) :
    let l := ks.map fun k => (k, ())
    ∃ s, collectSet (I := I) t NoditSet.new ks = .ok s ∧
      (∀ e ∈ s.iter, ∃ k ∈ ks, ∀ p : I, Mem p e ↔ ∃ k' ∈ ks, Linked (I := I) t l (k, ()) (k', ()) ∧ Mem p k') ∧
      (∀ k ∈ ks, ∃ e ∈ s.iter, ∀ p : I, Mem p e ↔ ∃ k' ∈ ks, Linked (I := I) t l (k, ()) (k', ()) ∧ Mem p k') ∧
      ∀ k ∈ ks, ∀ k' ∈ ks, ∀ p q : I, Mem p k → Mem q k' → (s.getAtPoint p = s.getAtPoint q ↔ Linked (I := I) t l (k, ()) (k', ())) := by
  intro l
  have hl : ∀ k, (k, ()) ∈ l ↔ k ∈ ks := fun k => by simp [l]
  have hv' : ∀ x ∈ l, Valid (I := I) x.1 := fun x hx => hv x.1 ((hl x.1).1 hx)
  obtain ⟨m, h1, h2, h3, h4⟩ := C137_groups t l hv'
  refine ⟨⟨m⟩, ?_, ?_, ?_, ?_⟩
  · rw [collectSet_eq]
    show (collect (I := I) t NoditMap.new l).map NoditSet.mk = _
    rw [h1]; rfl
  · intro e he
    obtain ⟨d, hd, rfl⟩ := List.mem_map.1 he
    obtain ⟨x, hx, hm⟩ := h3 d hd
    refine ⟨x.1, (hl x.1).1 hx, fun p => (hm p).trans ?_⟩
    exact ⟨fun ⟨y, hy, a, b⟩ => ⟨y.1, (hl y.1).1 hy, a, b⟩, fun ⟨k, hk, a, b⟩ => ⟨(k, ()), (hl k).2 hk, a, b⟩⟩
  · intro k hk
    obtain ⟨e, he, hm⟩ := h4 (k, ()) ((hl k).2 hk)
    refine ⟨e.1, List.mem_map.2 ⟨e, he, rfl⟩, fun p => (hm p).trans ?_⟩
    exact ⟨fun ⟨y, hy, a, b⟩ => ⟨y.1, (hl y.1).1 hy, a, b⟩, fun ⟨k, hk, a, b⟩ => ⟨(k, ()), (hl k).2 hk, a, b⟩⟩
  · intro k hk k' hk' p q hp hq
    have hi := Inv.of_collect hv' h1
    rw [← C137_lookup t l hv' h1 ((hl k).2 hk) ((hl k').2 hk') hp hq]
    have look : ∀ k ∈ ks, ∀ p : I, Mem p k → ∃ e : K × Unit, m.getKeyValueAtPoint p = .ok (.ok e) := by
      intro k hk p hp
      obtain ⟨e, he, hke⟩ := hi.within (k, ()) ((hl k).2 hk)
      obtain ⟨r, e1, e2, -⟩ := spec_getKeyValueAtPoint hi.wf p
      exact ⟨e, by rw [e1, (e2 e).2 ⟨he, hke p hp⟩]⟩
    obtain ⟨e, he⟩ := look k hk p hp
    obtain ⟨d, hd⟩ := look k' hk' q hq
    simp only [NoditSet.getAtPoint, he, hd, bind, Except.bind, pure, Except.pure, Except.map, Except.ok.injEq, Prod.ext_iff, and_true]

end Nodit.Groups
