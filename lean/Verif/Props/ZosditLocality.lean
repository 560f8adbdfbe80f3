import Verif.Props.Locality
import Verif.Props.ZosditExact
/-!
# C94: separate regions of a `ZosditMap`

The counterpart of C92 and C93 for `ZosditMap`. Entries a call has no business with stay, in order. But clients working on
separate regions do observe each other, because point lookups and `cut` depend on entries far away (findings 2 and 3); clients that
only insert do not.
-/
set_option linter.unusedSectionVars false
namespace Nodit
namespace Spec
variable {I K V : Type} [PointType I] [IntervalType I K]

/-- the call may remove or shorten entries with this interval -/
def ZOp.Hits : ZOp I K V → K → Prop
  | .insertStrictBack _ _ _, _ => False
  | .removeLastValueAtPoint p, k => Mem p k
  | .cut q, k => Overlap k q

/-- The interval, or the single point, a call works on. -/
def ZOp.arg : ZOp I K V → Interval I
  | .insertStrictBack k _ _ => ⟨start k, stop k⟩
  | .removeLastValueAtPoint p => ⟨p, p⟩
  | .cut q => q

/-- the call works on an interval within `a` -/
def ZOp.Within (op : ZOp I K V) (a : Interval I) : Prop := ∀ p, Mem p op.arg → Mem p a
end Spec
open Spec PointType ZosditMap

variable {I K Q V : Type} [PointType I] [IntervalType I K] [IntervalType I Q]
  [LawfulPoint I] [LawfulInterval I K]

theorem cutAll_sublist {q : Q} {l left returned : List (K × V)} (h : CutAll q l left returned) {P : K × V → Bool}
    (hP : ∀ e, P e = true → ¬ Overlap e.1 q) : (l.filter P).Sublist left := by
  induction h with
  | nil => exact List.Sublist.slnil
  | @cons e l left returned left' returned' he _ ih =>
    by_cases hp : P e = true
    · rw [List.filter_cons_of_pos hp, he.2.1 (hP e hp)]
      exact ih.cons_cons e
    · rw [List.filter_cons_of_neg hp]
      exact ih.trans (List.sublist_append_right _ _)

theorem zspecOp_unaffected {s s' : ZState K V} {op : ZOp I K V} {o : ZOut K V} (h : ZSpecOp s op s' o) {P : K × V → Bool}
    (hP : ∀ e, P e = true → ¬ op.Hits e.1) : (s.entries.filter P).Sublist (s'.entries.filter P) := by
  have base : ∀ l : List (K × V), (s.entries.filter P).Sublist l → (s.entries.filter P).Sublist (l.filter P) := by
    intro l hl
    have := hl.filter P
    rwa [List.filter_filter, show (fun a => P a && P a) = P from funext fun a => Bool.and_self _] at this
  cases op with
  | insertStrictBack k v pick =>
    by_cases hc : ∃ e ∈ s.entries, ¬ ZeroOverlap e.1 k
    · rw [(h.1 hc).1]
    · obtain ⟨-, l', ⟨l1, k', l2, h1, h2, -⟩, rfl⟩ := h.2 (fun e he => by_contra fun hz => hc ⟨e, he, hz⟩)
      refine base _ ?_
      refine List.filter_sublist.trans ?_
      rw [h1]; simp only [h2]
      exact List.Sublist.append_left (List.sublist_cons_self _ _) _
  | removeLastValueAtPoint p =>
    by_cases hc : NotFound s.entries p
    · rw [(h.1 hc).1]
    · obtain ⟨l1, k, v, l2, h1, h2, -, rfl, -⟩ := h.2 hc
      have : P (k, v) ≠ true := fun hp => hP _ hp h2
      rw [h1, List.filter_append, List.filter_cons_of_neg this, ← List.filter_append]
  | cut q =>
    by_cases hc : CutMisses s.entries q
    · rw [(h.1 hc).1]
    · obtain ⟨left, returned, h1, rfl, -⟩ := h.2 hc
      exact base _ (cutAll_sublist h1 hP)

/-- **C94**: after any history, over any further calls, the entries that contain none of the points at which values are removed
and overlap none of the intervals cut are still there, in the same order. -/
theorem C94_unaffected_entries_stay (ops ops' : List (ZOp I K V)) (P : K × V → Bool)
    (hP : ∀ e, P e = true → ∀ op ∈ ops', ¬ op.Hits e.1) :
    ((after ops).iter.filter P).Sublist ((after ops).run ops').1.iter := by
  obtain ⟨s, -, hr⟩ := ZosditMap.run_refines (represents_new (I := I) (K := K) (V := V)) ops
  have main : ∀ (ops' : List (ZOp I K V)) {m : ZosditMap K V} {s : ZState K V}, Represents m s →
      (∀ e, P e = true → ∀ op ∈ ops', ¬ op.Hits e.1) → (m.iter.filter P).Sublist ((m.run ops').1.iter.filter P) := by
    intro ops'
    induction ops' with
    | nil => intro m s _ _; exact List.Sublist.refl _
    | cons op ops' ih =>
      intro m s hr hP
      have hP' := fun e he op hop => hP e he op (List.mem_cons_of_mem _ hop)
      rcases ZosditMap.step_refines hr op with ⟨-, h1⟩ | ⟨-, m', o, s', h1, h2, h3⟩
      · rw [ZosditMap.run, h1]; exact ih hr hP'
      · rw [ZosditMap.run, h1]
        refine List.Sublist.trans ?_ (ih h2 hP')
        rw [hr.entries, h2.entries]
        exact zspecOp_unaffected h3 fun e he => hP e he op List.mem_cons_self
  exact (main ops' hr hP).trans List.filter_sublist

/-! ## Clients that only insert -/

theorem zeroOverlap_congr {a b k : K} (ha : Valid a) (h : SameInterval a b) : ZeroOverlap a k ↔ ZeroOverlap b k := by
  have ha' := valid_iff.1 ha
  have hb : Valid b := by obtain ⟨p, hp⟩ := ha; exact ⟨p, (h p).1 hp⟩
  have hb' := valid_iff.1 hb
  have h1 : start a = start b :=
    le_antisymm ((h _).2 ⟨le_refl _, hb'⟩).1 ((h _).1 ⟨le_refl _, ha'⟩).1
  have h2 : stop a = stop b :=
    le_antisymm ((h _).1 ⟨ha', le_refl _⟩).2 ((h _).2 ⟨hb', le_refl _⟩).2
  simp only [ZeroOverlap, Mem, h1, h2]

/-- what an insert does, and which later inserts it lets pass -/
theorem insert_step {m : ZosditMap K V} {s : ZState K V} (hm : Represents m s) {k : K} (hk : Valid k) (v : V) (pick : Nat) :
    ((¬ ∀ e ∈ m.iter, ZeroOverlap e.1 k) ∧ m.step (.insertStrictBack k v pick) = .ok (m, .strict (.error v))) ∨
    ((∀ e ∈ m.iter, ZeroOverlap e.1 k) ∧ ∃ m' s', m.step (.insertStrictBack k v pick) = .ok (m', .strict (.ok ())) ∧
      Represents m' s' ∧
      ∀ k₂ : K, (∀ e ∈ m'.iter, ZeroOverlap e.1 k₂) ↔ (∀ e ∈ m.iter, ZeroOverlap e.1 k₂) ∧ ZeroOverlap k k₂) := by
  by_cases hc : ∀ e ∈ m.iter, ZeroOverlap e.1 k
  · right
    refine ⟨hc, ?_⟩
    rcases ZosditMap.step_refines hm (.insertStrictBack k v pick) with ⟨hb, -⟩ | ⟨-, m', o, s', h1, h2, h3⟩
    · exact absurd hk hb
    · obtain ⟨rfl, l', ⟨l1, k', l2, e1, e2, e3, -⟩, rfl⟩ := h3.2 (by rw [← hm.entries]; exact hc)
      refine ⟨m', _, h1, h2, fun k₂ => ?_⟩
      rw [h2.entries, hm.entries, e1]
      simp only [e2, List.mem_append, List.mem_cons]
      have hk' : Valid k' := by obtain ⟨p, hp⟩ := hk; exact ⟨p, (e3 p).2 hp⟩
      have := zeroOverlap_congr (k := k₂) hk' e3
      constructor
      · intro h
        refine ⟨fun e he => h e ?_, this.1 (h (k', v) (Or.inr (Or.inl rfl)))⟩
        tauto
      · rintro ⟨h, hz⟩ e (he | rfl | he)
        · exact h e (Or.inl he)
        · exact this.2 hz
        · exact h e (Or.inr he)
  · left
    refine ⟨hc, ?_⟩
    rcases insert_exact hm.good hk v pick with ⟨-, h2⟩ | ⟨h1, -⟩
    · rw [ZosditMap.step, h2]; rfl
    · exact absurd h1 hc

section Clients
variable {ι : Type} [DecidableEq ι]

/-- **C94** (partial): clients whose regions share at most end points, each only inserting intervals within its region, valid or
not: for every schedule of their calls every client gets the results it would get alone. Missing: removals and cuts, for
which the claim is false (see below). -/
theorem C94_inserting_clients_partial (ops : List (ZOp I K V)) (region : ι → Interval I)
    (hsep : ∀ c d, c ≠ d → ZeroOverlap (region c) (region d))
    (sched : List (ι × ZOp I K V)) (hw : ∀ x ∈ sched, x.2.Within (region x.1))
    (hins : ∀ x ∈ sched, ∃ k v pick, x.2 = .insertStrictBack k v pick) (c : ι) :
    own c ((sched.map Prod.fst).zip ((after ops).run (sched.map Prod.snd)).2) = ((after ops).run (own c sched)).2 := by
  obtain ⟨s, -, hr⟩ := ZosditMap.run_refines (represents_new (I := I) (K := K) (V := V)) ops
  have main : ∀ (sched : List (ι × ZOp I K V)) {m n : ZosditMap K V} {s t : ZState K V}, Represents m s → Represents n t →
      (∀ k : K, Valid k → (∀ p, Mem p k → Mem p (region c)) →
        ((∀ e ∈ m.iter, ZeroOverlap e.1 k) ↔ (∀ e ∈ n.iter, ZeroOverlap e.1 k))) →
      (∀ x ∈ sched, x.2.Within (region x.1)) → (∀ x ∈ sched, ∃ k v pick, x.2 = .insertStrictBack k v pick) →
      own c ((sched.map Prod.fst).zip (m.run (sched.map Prod.snd)).2) = (n.run (own c sched)).2 := by
    intro sched
    induction sched with
    | nil => intros; rfl
    | cons x sched ih =>
      intro m n s t hm hn heq hw hins
      obtain ⟨i, op⟩ := x
      have hw' := fun x hx => hw x (List.mem_cons_of_mem _ hx)
      have hins' := fun x hx => hins x (List.mem_cons_of_mem _ hx)
      have hwi : op.Within (region i) := hw _ List.mem_cons_self
      obtain ⟨k, v, pick, rfl⟩ : ∃ k v pick, op = .insertStrictBack k v pick := hins _ List.mem_cons_self
      have hwk : ∀ p, Mem p k → Mem p (region i) := hwi
      have own_ne : ∀ {α : Type} (y : α) (l : List (ι × α)), c ≠ i → own c ((i, y) :: l) = own c l := by
        intro α y l hc; simp [own, Ne.symm hc]
      have own_eq : ∀ {α : Type} (y : α) (l : List (ι × α)), own i ((i, y) :: l) = y :: own i l := by
        intro α y l; simp [own]
      by_cases hk : Valid k
      · by_cases hc : c = i
        · subst hc
          rcases insert_step hm hk v pick with ⟨h0, h1⟩ | ⟨h0, m', s', h1, h2, h3⟩
          · rcases insert_step hn hk v pick with ⟨g0, g1⟩ | ⟨g0, -⟩
            · rw [List.map_cons, List.map_cons, own_eq]
              simp only [ZosditMap.run, h1, g1, List.zip_cons_cons, own_eq]
              rw [ih hm hn heq hw' hins']
            · exact absurd ((heq k hk hwk).2 g0) h0
          · rcases insert_step hn hk v pick with ⟨g0, g1⟩ | ⟨g0, n', t', g1, g2, g3⟩
            · exact absurd ((heq k hk hwk).1 h0) g0
            · rw [List.map_cons, List.map_cons, own_eq]
              simp only [ZosditMap.run, h1, g1, List.zip_cons_cons, own_eq]
              rw [ih h2 g2 (fun k₂ hk₂ hw₂ => by rw [h3, g3, heq k₂ hk₂ hw₂]) hw' hins']
        · rw [List.map_cons, List.map_cons, own_ne _ _ hc]
          rcases insert_step hm hk v pick with ⟨h0, h1⟩ | ⟨h0, m', s', h1, h2, h3⟩
          · simp only [ZosditMap.run, h1, List.zip_cons_cons, own_ne _ _ hc]
            exact ih hm hn heq hw' hins'
          · simp only [ZosditMap.run, h1, List.zip_cons_cons, own_ne _ _ hc]
            refine ih h2 hn (fun k₂ hk₂ hw₂ => ?_) hw' hins'
            rw [h3, heq k₂ hk₂ hw₂]
            refine and_iff_left ?_
            have hz := hsep c i hc
            refine ⟨fun p p' h1 h2 h3 h4 => hz.1 p p' (hw₂ p h2) (hwk p h1) (hw₂ p' h4) (hwk p' h3), fun p h1 h2 => ?_⟩
            obtain ⟨hz1, hz2⟩ := hz.2 p (hw₂ p h2) (hwk p h1)
            have hv1 := valid_iff.1 hk
            have hv2 := valid_iff.1 hk₂
            have a1 := (hwk _ ⟨le_refl _, hv1⟩).1
            have a2 := (hwk _ ⟨hv1, le_refl _⟩).2
            have b1 := (hw₂ _ ⟨le_refl _, hv2⟩).1
            have b2 := (hw₂ _ ⟨hv2, le_refl _⟩).2
            have c1 := h1.1; have c2 := h1.2; have d1 := h2.1; have d2 := h2.2
            constructor
            · rcases hz2 with hz2 | hz2
              · left; order
              · right; order
            · rcases hz1 with hz1 | hz1
              · left; order
              · right; order
      · have hbad : ∀ {m : ZosditMap K V} {s : ZState K V}, Represents m s →
            m.step (.insertStrictBack k v pick) = .error .invalidInterval := by
          intro m s hm
          rcases ZosditMap.step_refines hm (.insertStrictBack k v pick) with ⟨-, h⟩ | ⟨hb, -⟩
          · exact h
          · exact absurd hk hb
        by_cases hc : c = i
        · subst hc
          rw [List.map_cons, List.map_cons, own_eq]
          simp only [ZosditMap.run, hbad hm, hbad hn, List.zip_cons_cons, own_eq]
          rw [ih hm hn heq hw' hins']
        · rw [List.map_cons, List.map_cons, own_ne _ _ hc]
          simp only [ZosditMap.run, hbad hm, List.zip_cons_cons, own_ne _ _ hc]
          exact ih hm hn heq hw' hins'
  exact main sched hr hr (fun _ _ _ => Iff.rfl) hw hins
end Clients

/-- **C94** is false with removals: a client that inserted `0..=5` finds nothing at 5 if another client has inserted `100..=110`. -/
theorem C94_far_entry_hides_lookup :
    let mine : List (ZOp Demo.U8 (Interval Demo.U8) Nat) := [.insertStrictBack (Demo.iv 0 5) 1 0, .removeLastValueAtPoint (Demo.u8 5)]
    let shared := .insertStrictBack (Demo.iv 100 110) 2 0 :: mine
    (new.run mine).2 = [.ok (.strict (.ok ())), .ok (.optValue (some 1))] ∧
    (new.run shared).2 = [.ok (.strict (.ok ())), .ok (.strict (.ok ())), .ok (.optValue none)] := ⟨rfl, rfl⟩

/-- **C94** is false with cuts: a client that inserted `106..=108` cuts nothing out of `105..=140` if another client has inserted
`0..=2`. -/
theorem C94_far_entry_stops_cut :
    let mine : List (ZOp Demo.U8 (Interval Demo.U8) Nat) := [.insertStrictBack (Demo.iv 106 108) 1 0, .cut (Demo.iv 105 140)]
    let shared := .insertStrictBack (Demo.iv 0 2) 2 0 :: mine
    (new.run mine).2 = [.ok (.strict (.ok ())), .ok (.entries [(Demo.iv 106 108, 1)])] ∧
    (new.run shared).2 = [.ok (.strict (.ok ())), .ok (.strict (.ok ())), .ok (.entries [])] := ⟨rfl, rfl⟩

/-! ## Instances -/

/-- regions sharing the end point 50 -/
def Demo.zregion (c : Bool) : Interval Demo.U8 := if c then Demo.iv 50 90 else Demo.iv 0 50

/-- accepted, refused and panicking inserts of both clients -/
def Demo.zsched : List (Bool × ZOp Demo.U8 (Interval Demo.U8) Nat) :=
  [(true, .insertStrictBack (Demo.iv 50 60) 1 0), (false, .insertStrictBack (Demo.iv 35 50) 2 0), (true, .insertStrictBack (Demo.iv 55 56) 3 0),
   (false, .insertStrictBack (Demo.iv 50 50) 4 0), (true, .insertStrictBack (Demo.iv 9 5) 5 0), (false, .insertStrictBack (Demo.iv 1 3) 6 0)]

example : own false ((Demo.zsched.map Prod.fst).zip ((after Demo.zops).run (Demo.zsched.map Prod.snd)).2) =
    ((after Demo.zops).run [.insertStrictBack (Demo.iv 35 50) 2 0, .insertStrictBack (Demo.iv 50 50) 4 0, .insertStrictBack (Demo.iv 1 3) 6 0]).2 := by
  refine C94_inserting_clients_partial Demo.zops Demo.zregion ?_ Demo.zsched ?_ ?_ false
  · have hz : ∀ c d, c ≠ d → ∀ p, Mem p (Demo.zregion c) → Mem p (Demo.zregion d) → p = Demo.u8 50 := by
      intro c d hcd p hp hp'
      cases c <;> cases d
      · exact absurd rfl hcd
      · exact le_antisymm hp.2 hp'.1
      · exact le_antisymm hp'.2 hp.1
      · exact absurd rfl hcd
    intro c d hcd
    refine ⟨fun p p' h1 h2 h3 h4 => (hz c d hcd p h1 h2).trans (hz c d hcd p' h3 h4).symm, fun p h1 h2 => ?_⟩
    have h3 := hz c d hcd p h1 h2
    subst h3
    have : ∀ c, Demo.u8 50 = start (Demo.zregion c) ∨ Demo.u8 50 = stop (Demo.zregion c) := by decide
    exact ⟨this c, this d⟩
  · have hsub : ∀ (i r : Interval Demo.U8), (start r ≤ start i ∧ stop i ≤ stop r) ∨ stop i < start i → ∀ p, Mem p i → Mem p r := by
      rintro i r (h | h) p hp
      · exact ⟨le_trans h.1 hp.1, le_trans hp.2 h.2⟩
      · exact absurd (le_trans hp.1 hp.2) (not_le.2 h)
    intro x hx
    simp only [Demo.zsched, List.mem_cons, List.not_mem_nil, or_false] at hx
    rcases hx with rfl | rfl | rfl | rfl | rfl | rfl <;> exact hsub _ _ (by decide)
  · intro x hx
    simp only [Demo.zsched, List.mem_cons, List.not_mem_nil, or_false] at hx
    rcases hx with rfl | rfl | rfl | rfl | rfl | rfl <;> exact ⟨_, _, _, rfl⟩

/-- three of the four entries of the demo map survive a removal and a cut elsewhere -/
example : ((after Demo.zops).iter.filter fun e => decide (stop e.1 < Demo.u8 31 ∧ Demo.u8 0 < start e.1)).Sublist
    ((after Demo.zops).run [.removeLastValueAtPoint (Demo.u8 0), .cut (Demo.iv 31 70)]).1.iter := by
  refine C94_unaffected_entries_stay _ _ _ ?_
  intro e he op hop
  simp only [decide_eq_true_eq] at he
  simp only [List.mem_cons, List.not_mem_nil, or_false] at hop
  rcases hop with rfl | rfl
  · exact fun h => absurd h.1 (not_le.2 he.2)
  · rintro ⟨p, hp, hp'⟩; exact absurd (le_trans hp'.1 hp.2) (not_le.2 he.1)

example : ((after Demo.zops).iter.filter fun e => decide (stop e.1 < Demo.u8 31 ∧ Demo.u8 0 < start e.1)).length = 3 := by decide

end Nodit
