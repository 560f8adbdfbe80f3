import Verif.Serde
import Verif.Props.SetProps
import Verif.Props.GqditProps
import Verif.Props.ZosditProps
/-!
# C46 - C49: serialisation

The elements a format reads are given by a list `input : List (Except E _)`: the results of the successive
`next_element()` calls. `l.map .ok` is an input all of whose elements can be read.
-/
set_option linter.unusedSectionVars false
namespace Nodit
open Spec PointType

variable {I K V E D : Type} [PointType I] [IntervalType I K] [LawfulPoint I] [LawfulInterval I K] [DecidableEq D]

/-! ## `NoditMap` -/

section
open NoditMap

omit [LawfulInterval I K] in
theorem visitSeqFrom_append {m : NoditMap K V} (h : WF m.iter) {pre : List (K × V)}
    (hv : ∀ e ∈ pre, Valid e.1) (hd : pre.Pairwise (fun a b => ¬ Overlap a.1 b.1)) (hm : ∀ e ∈ pre, ∀ d ∈ m.iter, ¬ Overlap d.1 e.1)
    (rest : List (Except E (K × V))) :
    ∃ m' : NoditMap K V, m.visitSeqFrom (pre.map .ok ++ rest) = m'.visitSeqFrom rest ∧ WF m'.iter ∧
      (∀ e, e ∈ m'.iter ↔ e ∈ m.iter ∨ e ∈ pre) := by
  induction pre generalizing m with
  | nil => exact ⟨m, rfl, h, by simp⟩
  | cons a pre ih =>
    obtain ⟨k, v⟩ := a
    have hd' := List.pairwise_cons.1 hd
    obtain ⟨m', r, h1, h2, -, h4⟩ := C06_insert_strict h k (hv (k, v) (by simp)) v
    obtain ⟨rfl, h5, h6⟩ := h4 (fun e he => hm (k, v) (by simp) e he)
    obtain ⟨m'', e1, e2, e3⟩ := ih h2 (fun e he => hv e (by simp [he])) hd'.2 (fun e he d hdm => by
      rcases (h5 d).1 hdm with hdm | rfl
      · exact hm e (by simp [he]) d hdm
      · exact hd'.1 e he)
    refine ⟨m'', ?_, e2, fun e => ?_⟩
    · rw [List.map_cons, List.cons_append, visitSeqFrom, h1]; exact e1
    · rw [e3, h5, List.mem_cons]; tauto

omit [LawfulInterval I K] in
/-- **C47**: readable, valid and pairwise disjoint elements give the map with exactly these entries. -/
theorem C47_map_accepts {l : List (K × V)} (hv : ∀ e ∈ l, Valid e.1) (hd : l.Pairwise (fun a b => ¬ Overlap a.1 b.1)) :
    ∃ m : NoditMap K V, deserialize (E := E) (l.map .ok) = .ok (.ok m) ∧ WF m.iter ∧ ∀ e, e ∈ m.iter ↔ e ∈ l := by
  obtain ⟨m, h1, h2, h3⟩ := visitSeqFrom_append (E := E) (wf_new (K := K) (V := V) (I := I)) hv hd (by simp [new, iter]) []
  rw [List.append_nil] at h1
  exact ⟨m, by rw [deserialize, h1]; rfl, h2, fun e => by rw [h3]; simp [new, iter]⟩

omit [LawfulInterval I K] in
/-- **C47**, exactly what happens with a first element that cannot be used: unreadable and overlapping elements give an
error, an invalid interval a panic. -/
theorem C47_map_first_offender {pre : List (K × V)} {k : K} {v : V} {post : List (Except E (K × V))}
    (hv : ∀ e ∈ pre, Valid e.1) (hd : pre.Pairwise (fun a b => ¬ Overlap a.1 b.1)) :
    (∀ e, deserialize (pre.map .ok ++ .error e :: post) = .ok (.error (.format e) : Except (DeError E) (NoditMap K V))) ∧
    (Valid k → (∃ e ∈ pre, Overlap e.1 k) →
      deserialize (pre.map .ok ++ .ok (k, v) :: post) = .ok (.error (.custom "intervals overlap"))) ∧
    (¬ Valid k → deserialize (pre.map .ok ++ .ok (k, v) :: post) = .error .invalidInterval) := by
  refine ⟨fun e => ?_, ?_, ?_⟩
  · obtain ⟨m, h1, -⟩ := visitSeqFrom_append (wf_new (K := K) (V := V) (I := I)) hv hd (by simp [new, iter]) (.error e :: post)
    rw [deserialize, h1]; rfl
  all_goals
    obtain ⟨m, h1, h2, h3⟩ := visitSeqFrom_append (wf_new (K := K) (V := V) (I := I)) hv hd (by simp [new, iter]) (.ok (k, v) :: post)
    rw [deserialize, h1]
  · rintro hk ⟨e, he, ho⟩
    obtain ⟨m', r, e1, -, e2, -⟩ := C06_insert_strict h2 k hk v
    obtain ⟨rfl, rfl⟩ := e2 ⟨e, (h3 e).2 (Or.inr he), ho⟩
    rw [visitSeqFrom, e1]; rfl
  · intro hk
    rw [visitSeqFrom, panic_insertStrict hk]; rfl

omit [LawfulInterval I K] in
theorem visitSeqFrom_total {m : NoditMap K V} (h : WF m.iter) {input : List (Except E (K × V))}
    (hv : ∀ k v, .ok (k, v) ∈ input → Valid k) :
    ∃ r, m.visitSeqFrom input = .ok r ∧
      ∀ m', r = .ok m' → ∃ l : List (K × V), input = l.map .ok ∧ WF m'.iter ∧ ∀ e, e ∈ m'.iter ↔ e ∈ m.iter ∨ e ∈ l := by
  induction input generalizing m with
  | nil => exact ⟨.ok m, rfl, fun m' hm => by cases hm; exact ⟨[], rfl, h, by simp⟩⟩
  | cons a input ih =>
    cases a with
    | error e => exact ⟨_, rfl, fun m' hm => by cases hm⟩
    | ok a =>
      obtain ⟨k, v⟩ := a
      obtain ⟨m1, r, h1, h2, h3, h4⟩ := C06_insert_strict h k (hv k v (by simp)) v
      by_cases ho : ∃ e ∈ m.iter, Overlap e.1 k
      · obtain ⟨rfl, rfl⟩ := h3 ho
        exact ⟨.error (.custom "intervals overlap"), by rw [visitSeqFrom, h1]; rfl, fun m' hm => by cases hm⟩
      · obtain ⟨rfl, h5, -⟩ := h4 (fun e he hc => ho ⟨e, he, hc⟩)
        obtain ⟨r, i1, i2⟩ := ih h2 (fun k v hkv => hv k v (by simp [hkv]))
        refine ⟨r, by rw [visitSeqFrom, h1]; exact i1, fun m' hm => ?_⟩
        obtain ⟨l, rfl, i3, i4⟩ := i2 m' hm
        refine ⟨(k, v) :: l, rfl, i3, fun e => ?_⟩
        rw [i4, h5, List.mem_cons]; tauto

omit [LawfulInterval I K] in
/-- **C47** for inputs without invalid intervals: no panic; if a map results, every element could be read and the map
is well formed and holds exactly these entries. -/
theorem C47_map_partial {input : List (Except E (K × V))} (hv : ∀ k v, .ok (k, v) ∈ input → Valid k) :
    ∃ r, deserialize input = .ok r ∧
      ∀ m : NoditMap K V, r = .ok m → ∃ l : List (K × V), input = l.map .ok ∧ WF m.iter ∧ ∀ e, e ∈ m.iter ↔ e ∈ l := by
  obtain ⟨r, h1, h2⟩ := visitSeqFrom_total (wf_new (K := K) (V := V) (I := I)) hv
  refine ⟨r, h1, fun m hm => ?_⟩
  obtain ⟨l, h3, h4, h5⟩ := h2 m hm
  exact ⟨l, h3, h4, fun e => by rw [h5]; simp [new, iter]⟩

omit [LawfulInterval I K] in
/-- **C47** is false as stated: an invalid interval in the input makes deserialisation panic. -/
theorem C47_panics : ∃ input : List (Except Unit (Interval Demo.U8 × Nat)), deserialize input = .error .invalidInterval :=
  ⟨[.ok (Demo.iv 0 4, 1), .ok (Demo.iv 9 8, 2)], by decide⟩

omit [LawfulInterval I K] in
theorem deserialize_serialize {m : NoditMap K V} (h : WF m.iter) :
    deserialize (E := E) (m.serialize.elems.map .ok) = .ok (.ok m) := by
  have hd : m.iter.Pairwise (fun a b => ¬ Overlap a.1 b.1) :=
    h.2.imp (fun hb ⟨p, h1, h2⟩ => lt_irrefl p (hb p p h1 h2))
  obtain ⟨m', h1, h2, h3⟩ := C47_map_accepts (E := E) h.1 hd
  have : m'.inner = m.inner := (wf_iff_chain.1 h2).ext (wf_iff_chain.1 h) h3
  rw [serialize, h1]
  cases m; cases m'; cases this; rfl

/-- **C46**: the announced length is the number of elements, and reading the elements back gives the same map. -/
theorem C46_map_round_trip [BEq V] (ops : List (Op I K V)) (m : NoditMap K V) (hm : (new.run ops).1 = m) :
    m.serialize.hint = some m.serialize.elems.length ∧ deserialize (E := E) (m.serialize.elems.map .ok) = .ok (.ok m) := by
  subst hm
  exact ⟨rfl, deserialize_serialize (C01_invariant ops)⟩

example : Demo.m.serialize.hint = some 6 ∧ deserialize (E := Unit) (Demo.m.serialize.elems.map .ok) = .ok (.ok Demo.m) := by decide
example : deserialize (E := Unit) [.ok (Demo.iv 0 4, 1), .ok (Demo.iv 9 9, 2), .ok (Demo.iv 4 4, 3), .ok (Demo.iv 9 8, 2)]
  = .ok (.error (.custom "intervals overlap")) := by decide
example : deserialize (K := Interval Demo.U8) (V := Nat) [.ok (Demo.iv 0 4, 1), .error "unexpected token", .ok (Demo.iv 9 8, 2)]
  = .ok (.error (.format "unexpected token")) := by decide
end

/-! ## `NoditSet` -/

section
open NoditSet

omit [LawfulInterval I K] in
theorem set_visit (s : NoditSet K) (input : List (Except E K)) : s.visitSeqFrom input =
    (s.inner.visitSeqFrom (input.map (fun x => x.map (fun k => (k, ()))))).map (fun r => r.map NoditSet.mk) := by
  induction input generalizing s with
  | nil => rfl
  | cons a input ih =>
    cases a with
    | error e => rfl
    | ok k =>
      simp only [NoditSet.visitSeqFrom, NoditMap.visitSeqFrom, NoditSet.insertStrict, List.map_cons, Except.map,
        bind, Except.bind, pure, Except.pure]
      cases s.inner.insertStrict k () with
      | error p => rfl
      | ok r =>
        obtain ⟨m, r⟩ := r
        cases r with
        | error e => rfl
        | ok u => exact ih _

/-- **C46** for sets -/
theorem C46_set_round_trip (ops : List (SetOp I K)) (s : NoditSet K) (hs : (new : NoditSet K).run ops = s) :
    s.serialize.hint = some s.serialize.elems.length ∧ deserialize (E := E) (s.serialize.elems.map .ok) = .ok (.ok s) := by
  subst hs
  have hw := wf_iff.2 (C22_set_invariant ops).1
  generalize (new : NoditSet K).run ops = s at *
  refine ⟨by simp [serialize, NoditSet.len, NoditSet.iter, NoditMap.len, NoditMap.iter], ?_⟩
  rw [deserialize, set_visit]
  have h1 := deserialize_serialize (E := E) hw
  have h2 : ((s.serialize.elems.map .ok).map (fun x : Except E K => x.map (fun k => (k, ())))) = s.inner.serialize.elems.map .ok := by
    simp only [serialize, NoditSet.iter, NoditMap.serialize, List.map_map]
    exact List.map_congr_left fun _ _ => rfl
  rw [NoditMap.deserialize] at h1
  rw [h2, NoditSet.new, h1]; rfl

omit [LawfulInterval I K] in
/-- **C47** for sets: without invalid intervals in the input there is no panic, and a set that results is well formed and
holds exactly the given intervals, all of which could be read. -/
theorem C47_set_partial {input : List (Except E K)} (hv : ∀ k, .ok k ∈ input → Valid k) :
    ∃ r, deserialize input = .ok r ∧
      ∀ s : NoditSet K, r = .ok s → ∃ l : List K, input = l.map .ok ∧ Ascending s.iter ∧ ∀ k, k ∈ s.iter ↔ k ∈ l := by
  obtain ⟨r, h1, h2⟩ := C47_map_partial (V := Unit) (input := input.map (fun x => x.map (fun k => (k, ())))) (by
    intro k v hkv
    obtain ⟨x, hx, hxk⟩ := List.mem_map.1 hkv
    cases x with
    | error e => cases hxk
    | ok k' => cases hxk; exact hv k hx)
  rw [NoditMap.deserialize] at h1
  refine ⟨r.map NoditSet.mk, by rw [deserialize, set_visit, NoditSet.new, h1]; rfl, fun s hs => ?_⟩
  cases r with
  | error e => cases hs
  | ok m =>
    cases hs
    obtain ⟨l, h3, h4, h5⟩ := h2 m rfl
    refine ⟨l.map Prod.fst, ?_, wf_iff.1 h4, fun k => ?_⟩
    · have : (input.map (fun x => x.map (fun k => (k, ())))).map (fun x => x.map Prod.fst) = input := by
        rw [List.map_map]
        conv_rhs => rw [← List.map_id input]
        refine List.map_congr_left fun x _ => ?_
        cases x <;> rfl
      rw [← this, h3, List.map_map, List.map_map]
      exact List.map_congr_left fun _ _ => rfl
    · rw [mem_iter, h5, mem_fst]

omit [LawfulInterval I K] in
/-- **C47** for sets: an invalid interval after readable, valid, disjoint ones makes deserialisation panic; an
unreadable or overlapping one gives an error. -/
theorem C47_set_first_offender {pre : List K} {k : K} {post : List (Except E K)}
    (hv : ∀ e ∈ pre, Valid e) (hd : pre.Pairwise (fun a b => ¬ Overlap a b)) :
    (∀ e, deserialize (pre.map .ok ++ .error e :: post) = .ok (.error (.format e) : Except (DeError E) (NoditSet K))) ∧
    (Valid k → (∃ e ∈ pre, Overlap e k) →
      deserialize (pre.map .ok ++ .ok k :: post) = .ok (.error (.custom "intervals overlap"))) ∧
    (¬ Valid k → deserialize (pre.map .ok ++ .ok k :: post) = .error .invalidInterval) := by
  have hv' : ∀ e ∈ pre.map (fun k => (k, ())), Valid e.1 := by simpa using hv
  have hd' : (pre.map (fun k => (k, ()))).Pairwise (fun a b => ¬ Overlap a.1 b.1) := List.pairwise_map.2 hd
  obtain ⟨h1, h2, h3⟩ := C47_map_first_offender (k := k) (v := ()) (post := post.map (fun x => x.map (fun k => (k, ())))) hv' hd'
  have hm : ∀ x : Except E K, (pre.map Except.ok ++ x :: post).map (fun x : Except E K => x.map (fun k => (k, ())))
      = (pre.map (fun k => (k, ()))).map .ok ++ x.map (fun k => (k, ())) :: post.map (fun x => x.map (fun k => (k, ()))) := by
    intro x
    rw [List.map_append, List.map_cons, List.map_map, List.map_map]
    rfl
  simp only [NoditMap.deserialize] at h1 h2 h3
  refine ⟨fun e => ?_, fun a b => ?_, fun a => ?_⟩
  · rw [deserialize, set_visit, hm, NoditSet.new]
    show (NoditMap.visitSeqFrom _ (_ ++ Except.error e :: _)).map _ = _
    rw [h1]; rfl
  · rw [deserialize, set_visit, hm, NoditSet.new]
    show (NoditMap.visitSeqFrom _ (_ ++ Except.ok (k, ()) :: _)).map _ = _
    rw [h2 a (by simpa using b)]; rfl
  · rw [deserialize, set_visit, hm, NoditSet.new]
    show (NoditMap.visitSeqFrom _ (_ ++ Except.ok (k, ()) :: _)).map _ = _
    rw [h3 a]; rfl

example : deserialize (E := Unit) (((new : NoditSet (Interval Demo.U8)).run Demo.sops).serialize.elems.map .ok)
  = .ok (.ok (new.run Demo.sops)) := by decide
end

/-! ## `Gqdit` -/

section
open Gqdit

omit [LawfulInterval I K] in
theorem gq_deserialize {input : List (Except E (K × Finset D))} : Gqdit.deserialize input =
    (NoditMap.deserialize input).map (fun r => r.map Gqdit.mk) := by
  unfold Gqdit.deserialize
  cases NoditMap.deserialize input with
  | error p => rfl
  | ok r => cases r <;> rfl

/-- **C49**, round trip: the announced length is right and reading the elements back gives the same `Gqdit`. -/
theorem C49_round_trip {h : GqHist I K D} {g : Gqdit K D} (hg : eval h = .ok g) :
    g.serialize.hint = some g.serialize.elems.length ∧
    Gqdit.deserialize (E := E) (g.serialize.elems.map .ok) = .ok (.ok g) := by
  refine ⟨rfl, ?_⟩
  rw [gq_deserialize]
  have := deserialize_serialize (E := E) (rep_of_eval hg).wf
  rw [Gqdit.serialize, this]; rfl

omit [LawfulInterval I K] in
/-- **C49** for inputs whose (valid, disjoint) intervals cover every point: the result answers `identifiers_at_point`
with the identifiers given for the interval containing the point. -/
theorem C49_deserialize_partial {l : List (K × Finset D)} (hv : ∀ e ∈ l, Valid e.1)
    (hd : l.Pairwise (fun a b => ¬ Overlap a.1 b.1)) (hc : ∀ p : I, ∃ e ∈ l, Mem p e.1) :
    ∃ g : Gqdit K D, Gqdit.deserialize (E := E) (l.map .ok) = .ok (.ok g) ∧
      (∀ p : I, ∃ e ∈ g.inner.iter, Mem p e.1) ∧
      ∀ (p : I) e, e ∈ l → Mem p e.1 → g.identifiersAtPoint p = .ok e.2 := by
  obtain ⟨m, h1, h2, h3⟩ := C47_map_accepts (E := E) hv hd
  refine ⟨⟨m⟩, by rw [gq_deserialize, h1]; rfl, fun p => ?_, fun p e he hp => ?_⟩
  · obtain ⟨e, he, hp⟩ := hc p
    exact ⟨e, (h3 e).2 he, hp⟩
  · obtain ⟨r, h4, h5⟩ := NoditMap.spec_getAtPoint h2 p
    have := (h5 e.2).2 ⟨e, (h3 e).2 he, hp, rfl⟩
    subst this
    simp only [Gqdit.identifiersAtPoint, bind, Except.bind, pure, Except.pure]
    rw [h4]; rfl

omit [LawfulInterval I K] in
/-- **C49** is false as stated: reading an empty sequence gives a `Gqdit` on which `insert` has no effect. -/
theorem C49_not_covering : ∃ g : Gqdit (Interval Demo.U8) Nat, Gqdit.deserialize (E := Unit) [] = .ok (.ok g) ∧
    g.insert {1} (Demo.iv 0 4) = .ok g ∧ g.identifiersAtPoint (Demo.u8 2) = .ok ∅ ∧
    g.gapsNoIdentifier (Demo.iv 0 9) = .ok [] :=
  ⟨⟨⟨[]⟩⟩, by decide, by decide, by decide, by decide⟩

omit [LawfulInterval I K] in
/-- a deserialised `Gqdit` without entries stays without effect under all further inserts -/
theorem C49_empty_is_inert {ids : Finset D} {k : K} (hk : Valid k) : (⟨⟨[]⟩⟩ : Gqdit K D).insert ids k = .ok ⟨⟨[]⟩⟩ := by
  unfold Gqdit.insert
  rw [invalidIntervalPanic_ok (valid_iff.1 hk)]
  simp only [bind, Except.bind, pure, Except.pure]
  split_ifs with h
  · rfl
  · rw [NoditMap.cut_ok (m := ⟨[]⟩) Chain.nil (valid_iff.1 hk)]
    rfl

example : Gqdit.deserialize (E := Unit) (Demo.gq.serialize.elems.map .ok) = .ok (.ok Demo.gq) := by decide
end

/-! ## `ZosditMap` -/

section
open ZosditMap

omit [LawfulInterval I K] in
theorem zvisit_append {m : ZosditMap K V} (h : Good m) (hn : NoDup m.inner) (picks : Nat → Nat) {pre : List (K × V)}
    (hv : ∀ e ∈ pre, Valid e.1) (hz : pre.Pairwise (fun a b => ZeroOverlap a.1 b.1))
    (hm : ∀ e ∈ pre, ∀ d ∈ m.iter, ZeroOverlap d.1 e.1) (rest : List (Except E (K × V))) :
    ∃ (m' : ZosditMap K V) (picks' : Nat → Nat), m.visitSeqFrom picks (pre.map .ok ++ rest) = m'.visitSeqFrom picks' rest ∧
      m.fromIterFrom picks pre = .ok (.ok m') := by
  induction pre generalizing m picks with
  | nil => exact ⟨m, picks, rfl, rfl⟩
  | cons a pre ih =>
    obtain ⟨k, v⟩ := a
    obtain ⟨z1, z2⟩ := List.pairwise_cons.1 hz
    have hk := valid_iff.1 (hv (k, v) (by simp))
    have hkm := hm (k, v) (by simp)
    simp only at hk hkm z1
    rcases insert_step h hk v (picks 0) with ⟨⟨e, he, hc⟩, -⟩ |
      ⟨-, m', l1, k', l2, e1, e2, e3, e4, e5, e6, e7, e8, e9, e10, e11, e12, e13⟩
    · exact absurd ((zeroOverlap_iff (h.inv.flat.1 e he) hk).1 (hkm e he)) hc
    · have hmem : ∀ e ∈ m'.iter, e = (k', v) ∨ e ∈ m.iter := by
        intro e he
        rw [e4] at he; rw [e3]
        simp only [List.mem_append, List.mem_cons] at he ⊢
        tauto
      obtain ⟨m'', picks', i1, i2⟩ := ih e2 (e12 hn) (fun i => picks (i + 1)) (fun e he => hv e (by simp [he])) z2
        (fun e he d hd => by
          have hve := valid_iff.1 (hv e (by simp [he]))
          rcases hmem d hd with rfl | hd
          · rw [zeroOverlap_iff (by simpa [e6, e7] using hk) hve]
            simp only [e6, e7]
            exact (zeroOverlap_iff hk hve).1 (z1 e he)
          · exact hm e (by simp [he]) d hd)
      refine ⟨m'', picks', ?_, ?_⟩
      · rw [List.map_cons, List.cons_append, visitSeqFrom, e1]; exact i1
      · rw [fromIterFrom, e1]; exact i2

omit [LawfulInterval I K] in
/-- **C47** for `ZosditMap`: on readable, valid, pairwise zero-overlapping elements, `deserialize` does what
`from_iter_strict_back` does (C45). -/
theorem C47_zosdit_accepts {l : List (K × V)} (hv : ∀ e ∈ l, Valid e.1) (hz : l.Pairwise (fun a b => ZeroOverlap a.1 b.1))
    (picks : Nat → Nat) :
    ∃ m : ZosditMap K V, deserialize (E := E) (l.map .ok) picks = .ok (.ok m) ∧ fromIterStrictBack l picks = .ok (.ok m) := by
  obtain ⟨m, picks', h1, h2⟩ := zvisit_append (E := E) (good_new (I := I) (K := K) (V := V)) (by simp [NoDup, new]) picks hv hz
    (by simp [new, iter, flatten]) []
  rw [List.append_nil] at h1
  exact ⟨m, by rw [deserialize, h1]; rfl, h2⟩

omit [LawfulInterval I K] in
/-- **C47** for `ZosditMap`, exactly what happens with a first element that cannot be used. -/
theorem C47_zosdit_first_offender {pre : List (K × V)} {k : K} {v : V} {post : List (Except E (K × V))}
    (hv : ∀ e ∈ pre, Valid e.1) (hz : pre.Pairwise (fun a b => ZeroOverlap a.1 b.1)) (picks : Nat → Nat) :
    (∀ e, deserialize (pre.map .ok ++ .error e :: post) picks = .ok (.error (.format e) : Except (DeError E) (ZosditMap K V))) ∧
    (Valid k → (∃ e ∈ pre, ¬ ZeroOverlap e.1 k) →
      deserialize (pre.map .ok ++ .ok (k, v) :: post) picks = .ok (.error (.custom "intervals non-zero-overlap"))) ∧
    (¬ Valid k → deserialize (pre.map .ok ++ .ok (k, v) :: post) picks = .error .invalidInterval) := by
  refine ⟨fun e => ?_, ?_, ?_⟩
  · obtain ⟨m, picks', h1, -⟩ := zvisit_append (good_new (I := I) (K := K) (V := V)) (by simp [NoDup, new]) picks hv hz
      (by simp [new, iter, flatten]) (.error e :: post)
    rw [deserialize, h1]; rfl
  all_goals
    obtain ⟨m, picks', h1, h2⟩ := zvisit_append (good_new (I := I) (K := K) (V := V)) (by simp [NoDup, new]) picks hv hz
      (by simp [new, iter, flatten]) (.ok (k, v) :: post)
    rw [deserialize, h1, visitSeqFrom]
  · intro hk ho
    obtain ⟨m'', picks'', g1, g2, -⟩ := fromIterFrom_append (good_new (I := I) (K := K) (V := V)) (by simp [NoDup, new]) picks hv hz
      (by simp [new, iter, flatten]) []
    rw [List.append_nil, h2] at g1
    have hmm : m = m'' := by
      have : (Except.ok (Except.ok m) : Res (Except (NonZeroOverlapError V) (ZosditMap K V))) = .ok (.ok m'') := g1
      cases this; rfl
    subst hmm
    rcases insert_step g2 (valid_iff.1 hk) v (picks' 0) with ⟨-, h8⟩ | ⟨h8, -⟩
    · rw [h8]; rfl
    · exfalso
      obtain ⟨m4, f1, -, -, f3, f4, -⟩ := C45_from_iter_strict_back hv hz picks
      rw [fromIterStrictBack, h2] at f1
      cases f1
      obtain ⟨e, he, hne⟩ := ho
      have hve := hv e he
      classical
      have h11 : e.2 ∈ (m.iter.filter (fun d => SameInterval d.1 (⟨start e.1, stop e.1⟩ : Interval I))).map Prod.snd := by
        rw [f3 ⟨start e.1, stop e.1⟩ (valid_iff.2 (valid_iff.1 hve))]
        exact List.mem_map.2 ⟨e, List.mem_filter.2 ⟨he, decide_eq_true (fun p => Iff.rfl)⟩, rfl⟩
      obtain ⟨d, hd, -⟩ := List.mem_map.1 h11
      obtain ⟨hd1, hd2⟩ := List.mem_filter.1 hd
      have hvd := g2.inv.flat.1 d hd1
      have hs := (sameInterval_iff hvd (b := (⟨start e.1, stop e.1⟩ : Interval I)) (valid_iff.1 hve)).1 (by simpa using hd2)
      have := h8 d hd1
      rw [hs.1, hs.2] at this
      exact hne ((zeroOverlap_iff (valid_iff.1 hve) (valid_iff.1 hk)).2 this)
  · intro hk
    rw [insertStrictBack, invalidIntervalPanic_err (by rwa [valid_iff] at hk)]; rfl

omit [LawfulInterval I K] in
/-- **C47** for `ZosditMap` and inputs without invalid intervals: no panic, and if a map results, every element could
be read and every item zero-overlaps all earlier ones (so C45 tells what is in the map). -/
theorem C47_zosdit_partial {input : List (Except E (K × V))} (hv : ∀ k v, .ok (k, v) ∈ input → Valid k) (picks : Nat → Nat) :
    ∃ r, deserialize input picks = .ok r ∧
      ∀ m : ZosditMap K V, r = .ok m → ∃ l : List (K × V), input = l.map .ok ∧ l.Pairwise (fun a b => ZeroOverlap a.1 b.1) ∧
        fromIterStrictBack l picks = .ok (.ok m) := by
  -- the longest usable prefix
  have key : ∀ input : List (Except E (K × V)), (∃ l : List (K × V), input = l.map .ok ∧ l.Pairwise (fun a b => ZeroOverlap a.1 b.1)) ∨
      ∃ (pre : List (K × V)) (x : Except E (K × V)) (post : List (Except E (K × V))), input = pre.map .ok ++ x :: post ∧
        pre.Pairwise (fun a b => ZeroOverlap a.1 b.1) ∧
        ((∃ e, x = .error e) ∨ ∃ k v, x = .ok (k, v) ∧ ∃ e ∈ pre, ¬ ZeroOverlap e.1 k) := by
    intro input
    rw [← List.reverse_reverse input]
    generalize input.reverse = input
    induction input with
    | nil => exact Or.inl ⟨[], rfl, List.Pairwise.nil⟩
    | cons a input ih =>
      rw [List.reverse_cons]
      generalize input.reverse = input at *
      rcases ih with ⟨l, rfl, hl⟩ | ⟨pre, x, post, rfl, h1, h2⟩
      · cases a with
        | error e => exact Or.inr ⟨l, .error e, [], rfl, hl, Or.inl ⟨e, rfl⟩⟩
        | ok a =>
          by_cases hc : ∀ e ∈ l, ZeroOverlap e.1 a.1
          · refine Or.inl ⟨l ++ [a], by simp, List.pairwise_append.2 ⟨hl, by simp, ?_⟩⟩
            intro e he b hb
            rw [List.mem_singleton] at hb; subst hb
            exact hc e he
          · simp only [not_forall] at hc
            obtain ⟨e, he, hne⟩ := hc
            exact Or.inr ⟨l, .ok a, [], rfl, hl, Or.inr ⟨a.1, a.2, rfl, e, he, hne⟩⟩
      · exact Or.inr ⟨pre, x, post ++ [a], by simp, h1, h2⟩
  rcases key input with ⟨l, rfl, hl⟩ | ⟨pre, x, post, rfl, h1, h2⟩
  · obtain ⟨m, h3, h4⟩ := C47_zosdit_accepts (E := E) (fun e he => hv e.1 e.2 (List.mem_map.2 ⟨e, he, rfl⟩)) hl picks
    exact ⟨_, h3, fun m' hm => by cases hm; exact ⟨l, rfl, hl, h4⟩⟩
  · have hpre : ∀ e ∈ pre, Valid e.1 := fun e he => hv e.1 e.2 (List.mem_append_left _ (List.mem_map.2 ⟨e, he, rfl⟩))
    rcases h2 with ⟨e, rfl⟩ | ⟨k, v, rfl, ho⟩
    · obtain ⟨m, picks', g1, -⟩ := zvisit_append (good_new (I := I) (K := K) (V := V)) (by simp [NoDup, new]) picks hpre h1
        (by simp [new, iter, flatten]) (.error e :: post)
      exact ⟨.error (.format e), by rw [deserialize, g1]; rfl, fun m hm => by cases hm⟩
    · have h3 := (C47_zosdit_first_offender (E := E) (k := k) (v := v) (post := post) hpre h1 picks).2.1
        (hv k v (by simp)) ho
      exact ⟨_, h3, fun m hm => by cases hm⟩

/-! ### C48: round trip of `ZosditMap` -/

omit [LawfulInterval I K] in
/-- the recorded elements, read back in order, come out in the same order; equal keys stay equal -/
theorem zvisit_sorted {m : ZosditMap K V} (h : Good m) (hn : NoDup m.inner) (picks : Nat → Nat) {l : List (K × V)}
    (hv : ∀ e ∈ l, start e.1 ≤ stop e.1) (hs : l.Pairwise (fun a b => stop a.1 ≤ start b.1))
    (hm : ∀ d ∈ m.iter, ∀ e ∈ l, stop d.1 ≤ start e.1) :
    ∃ (m' : ZosditMap K V) (l' : List (K × V)), m.visitSeqFrom (E := E) picks (l.map .ok) = .ok (.ok m') ∧ Good m' ∧ NoDup m'.inner ∧
      m'.iter = m.iter ++ l' ∧ m'.len = m.len + l.length ∧ List.Forall₂ (fun a b => SameInterval a.1 b.1 ∧ a.2 = b.2) l' l ∧
      ((∀ a ∈ m.iter ++ l, ∀ b ∈ l, SameInterval a.1 b.1 → a.1 = b.1) → l' = l) := by
  induction l generalizing m picks with
  | nil => exact ⟨m, [], rfl, h, hn, by simp, rfl, List.Forall₂.nil, fun _ => rfl⟩
  | cons a l ih =>
    obtain ⟨k, v⟩ := a
    obtain ⟨s1, s2⟩ := List.pairwise_cons.1 hs
    have hk := hv (k, v) (by simp)
    have hkm := fun d hd => hm d hd (k, v) (by simp)
    simp only at hk hkm s1
    rcases insert_step h hk v (picks 0) with ⟨⟨e, he, hc⟩, -⟩ |
      ⟨-, m', l1, k', l2, e1, e2, e3, e4, e5, e6, e7, e8, e9, e10, e11, e12, e13⟩
    · exact absurd (Or.inl (hkm e he)) hc
    · have hl2 : l2 = [] := by
        cases l2 with
        | nil => rfl
        | cons e l2 =>
          exfalso
          have he : e ∈ m.iter := by rw [e3]; simp
          have h1 := hkm e he
          have h2 := e10 e (by simp)
          have h3 := h.inv.flat.1 e he
          exact e11 (Or.inl hn) e (by simp) ⟨by order, by order⟩
      subst hl2
      rw [List.append_nil] at e3
      have hiter : m'.iter = m.iter ++ [(k', v)] := by rw [e4, e3]
      obtain ⟨m'', l', i1, i2, i3, i4, i5, i6, i7⟩ := ih e2 (e12 hn) (fun i => picks (i + 1)) (fun e he => hv e (by simp [he])) s2
        (by
          intro d hd e he
          rw [hiter] at hd
          rcases List.mem_append.1 hd with hd | hd
          · exact hm d hd e (by simp [he])
          · rw [List.mem_singleton] at hd; subst hd
            simp only [e7]; exact s1 e he)
      have hsame : SameInterval k' k := fun p => by simp [Mem, e6, e7]
      refine ⟨m'', (k', v) :: l', ?_, i2, i3, ?_, ?_, List.Forall₂.cons ⟨hsame, rfl⟩ i6, ?_⟩
      · rw [List.map_cons, visitSeqFrom, e1]; exact i1
      · rw [i4, hiter]; simp
      · rw [i5, e5, List.length_cons]; omega
      · intro hkeys
        have hkk : k' = k := by
          rcases e8 with e8 | ⟨e, he, hek⟩
          · exact e8
          · subst hek
            exact hkeys e (by simp [he]) (k, v) (by simp) hsame
        subst hkk
        rw [i7]
        intro a ha b hb
        refine hkeys a ?_ b (by simp [hb])
        rw [hiter] at ha
        simpa using ha

omit [LawfulInterval I K] in
theorem flatten_inj {l l' : List (K × List V)} (h : ZInv l) (hn : NoDup l) (h' : ZInv l') (hn' : NoDup l')
    (he : flatten l = flatten l') : l = l' := by
  induction l generalizing l' with
  | nil =>
    cases l' with
    | nil => rfl
    | cons e l' =>
      obtain ⟨-, h2, -⟩ := ZInv.cons.1 h'
      rw [flatten_cons, flatten_nil] at he
      have := congrArg List.length he
      simp only [List.length_nil, List.length_append, List.length_map] at this
      exact absurd (List.length_eq_zero_iff.1 (by omega)) h2
  | cons e l ih =>
    cases l' with
    | nil =>
      obtain ⟨-, h2, -⟩ := ZInv.cons.1 h
      rw [flatten_cons, flatten_nil] at he
      have := congrArg List.length he
      simp only [List.length_nil, List.length_append, List.length_map] at this
      exact absurd (List.length_eq_zero_iff.1 (by omega)) h2
    | cons e' l' =>
      obtain ⟨k, vs⟩ := e
      obtain ⟨k', vs'⟩ := e'
      obtain ⟨a1, a2, a3, a4, a5⟩ := ZInv.cons.1 h
      obtain ⟨b1, b2, b3, b4, b5⟩ := ZInv.cons.1 h'
      obtain ⟨n1, n2⟩ := List.pairwise_cons.1 hn
      obtain ⟨n1', n2'⟩ := List.pairwise_cons.1 hn'
      simp only at a1 a2 a3 a4 b1 b2 b3 b4 n1 n1'
      rw [flatten_cons, flatten_cons] at he
      simp only at he
      have hk : k = k' := by
        cases vs with
        | nil => exact absurd rfl a2
        | cons v vs =>
          cases vs' with
          | nil => exact absurd rfl b2
          | cons v' vs' =>
            simp only [List.map_cons, List.cons_append, List.cons.injEq, Prod.mk.injEq] at he
            exact he.1.1
      subst hk
      have key : ∀ (vs : List V) (r : List (K × List V)), (∀ x ∈ r, stop k ≤ start x.1) → (∀ x ∈ r, start k < stop x.1) →
          (vs.map (fun v => (k, v)) ++ flatten r).filter (sameEnds ⟨start k, stop k⟩) = vs.map (fun v => (k, v)) := by
        intro vs r c1 c2
        rw [List.filter_append, List.filter_eq_self.2, List.filter_eq_nil_iff.2, List.append_nil]
        · intro x hx hx'
          obtain ⟨d, hd, hd1, -⟩ := mem_flatten.1 hx
          simp only [sameEnds, decide_eq_true_eq] at hx'
          have := c1 d hd
          have := c2 d hd
          rw [hd1] at *
          rw [hx'.1] at *; rw [hx'.2] at *
          order
        · intro x hx
          obtain ⟨v, -, rfl⟩ := List.mem_map.1 hx
          simp [sameEnds]
      have hvs : vs.map (fun v => (k, v)) = vs'.map (fun v => (k, v)) := by
        rw [← key vs l a4 n1, he, key vs' l' b4 n1']
      rw [hvs] at he
      have hl := ih a5 n2 b5 n2' (List.append_cancel_left he)
      have hvs' : vs = vs' := by
        have := congrArg (List.map Prod.snd) hvs
        simpa [List.map_map, Function.comp_def] using this
      rw [hvs', hl]

/-- **C48**, for all histories: reading back gives a map with the same entries in the same order (an interval may come
back as the key first given for the same points). -/
theorem C48_round_trip_entries (ops : List (ZOp I K V)) (picks : Nat → Nat) :
    ∃ m : ZosditMap K V, deserialize (E := E) ((after ops).serialize.elems.map .ok) picks = .ok (.ok m) ∧
      List.Forall₂ (fun a b => SameInterval a.1 b.1 ∧ a.2 = b.2) m.iter (after ops).iter ∧ m.length = (after ops).iter.length := by
  obtain ⟨f1, f2⟩ := (good_after ops).inv.flat
  obtain ⟨m', l', i1, i2, i3, i4, i5, i6, i7⟩ := zvisit_sorted (E := E) (good_new (I := I) (K := K) (V := V)) (by simp [NoDup, new]) picks
    f1 f2 (by simp [new, iter, flatten])
  refine ⟨m', i1, ?_, ?_⟩
  · rw [i4]; simpa [new, iter, flatten] using i6
  · rw [length, i5]; simp [new, iter]

omit [LawfulInterval I K] in
/-- **C48**, the plain interval type: the entries come back exactly. -/
theorem C48_round_trip_entries_interval (ops : List (ZOp I (Interval I) V)) (picks : Nat → Nat) :
    ∃ m : ZosditMap (Interval I) V, deserialize (E := E) ((after ops).serialize.elems.map .ok) picks = .ok (.ok m) ∧
      m.iter = (after ops).iter := by
  obtain ⟨f1, f2⟩ := (good_after ops).inv.flat
  obtain ⟨m', l', i1, i2, i3, i4, i5, i6, i7⟩ := zvisit_sorted (E := E) (good_new (I := I) (K := Interval I) (V := V)) (by simp [NoDup, new])
    picks f1 f2 (by simp [new, iter, flatten])
  refine ⟨m', i1, ?_⟩
  rw [i4, i7]
  · simp [new, iter, flatten]
  · intro a ha b hb hab
    have ha : a ∈ flatten (after ops).inner := by simpa [new, iter, flatten] using ha
    obtain ⟨h1, h2⟩ := (sameInterval_iff (f1 a ha) (f1 b hb)).1 hab
    obtain ⟨⟨a1, a2⟩, av⟩ := a
    obtain ⟨⟨b1, b2⟩, bv⟩ := b
    have h1 : a1 = b1 := h1
    have h2 : a2 = b2 := h2
    rw [h1, h2]

/-- **C48**: the announced length is right exactly when no call to `remove_last_value_at_point` has removed a value. -/
theorem C48_announced_length_exact (ops : List (ZOp I K V)) :
    (after ops).serialize.hint = some (after ops).serialize.elems.length ↔ ∀ o ∈ outputs ops, isRemoval o = false := by
  have h := C42_len_exact ops
  have h' : (∀ o ∈ outputs ops, isRemoval o = false) ↔ (outputs ops).countP isRemoval = 0 := by
    rw [List.countP_eq_zero]; simp
  rw [serialize, Option.some_inj, h']
  show (after ops).length = (after ops).iter.length ↔ _
  omega

omit [LawfulInterval I K] in
theorem noDup_iff {l : List (K × List V)} (h : ZInv l) : NoDup l ↔ l.Pairwise (fun a b => ¬ SameInterval a.1 b.1) := by
  induction l with
  | nil => simp [NoDup]
  | cons e l ih =>
    obtain ⟨a1, a2, a3, a4, a5⟩ := ZInv.cons.1 h
    rw [NoDup, List.pairwise_cons, List.pairwise_cons]
    refine and_congr (forall₂_congr fun b hb => ?_) (ih a5)
    have h1 := a4 b hb
    have h2 := a5.valid b hb
    rw [sameInterval_iff a1 h2]
    constructor
    · rintro h ⟨e1, e2⟩; order
    · intro h; by_contra hc; exact h ⟨by order, by order⟩

/-- **C48**, exactly: reading back gives an equal map if and only if no call has removed a value and no two value stores
of the map are for the same interval (`cut` can leave two for a point, see `C48_not_equal`). -/
theorem C48_round_trip_exact (ops : List (ZOp I K V)) (picks : Nat → Nat) :
    deserialize (E := E) ((after ops).serialize.elems.map .ok) picks = .ok (.ok (after ops)) ↔
      (∀ o ∈ outputs ops, isRemoval o = false) ∧ (after ops).inner.Pairwise (fun a b => ¬ SameInterval a.1 b.1) := by
  have hg := good_after ops
  rw [← noDup_iff hg.inv, ← C48_announced_length_exact, serialize, Option.some_inj]
  obtain ⟨f1, f2⟩ := hg.inv.flat
  obtain ⟨m', l', i1, i2, i3, i4, i5, i6, i7⟩ := zvisit_sorted (E := E) (good_new (I := I) (K := K) (V := V)) (by simp [NoDup, new]) picks
    f1 f2 (by simp [new, iter, flatten])
  rw [deserialize, iter, i1]
  have e0 : (new : ZosditMap K V).len = 0 := rfl
  constructor
  · intro h
    simp only [Except.ok.injEq] at h
    rw [← h] at f1 ⊢
    exact ⟨by rw [length, i5, e0, h]; simp, i3⟩
  · rintro ⟨hlen, hnd⟩
    have hkeys : ∀ a ∈ (new : ZosditMap K V).iter ++ flatten (after ops).inner, ∀ b ∈ flatten (after ops).inner,
        SameInterval a.1 b.1 → a.1 = b.1 := by
      intro a ha b hb hab
      have ha : a ∈ flatten (after ops).inner := by simpa [new, iter, flatten] using ha
      obtain ⟨h1, h2⟩ := (sameInterval_iff (f1 a ha) (f1 b hb)).1 hab
      obtain ⟨d, hd, hd1, -⟩ := mem_flatten.1 ha
      obtain ⟨d', hd', hd1', -⟩ := mem_flatten.1 hb
      by_contra hne
      have hdd : d ≠ d' := fun hc => hne (by rw [← hd1, ← hd1', hc])
      have hva := f1 a ha
      rcases pairwise_or (hg.inv.seq.and hnd) hd hd' hdd with ⟨g1, g2⟩ | ⟨g1, g2⟩
      · rw [hd1, hd1'] at *; rw [h1] at *; rw [h2] at *; order
      · rw [hd1, hd1'] at *; rw [h1] at *; rw [h2] at *; order
    have hl := i7 hkeys
    have hiter : m'.iter = (after ops).iter := by rw [i4, hl]; simp [new, iter, flatten]
    have hinner : m'.inner = (after ops).inner := flatten_inj i2.inv i3 hg.inv hnd hiter
    have hlen' : m'.len = (after ops).len := by
      rw [i5]; rw [length] at hlen; rw [hlen]; simp [new]
    have hmm : m' = after ops := by
      generalize after ops = m at *
      cases m; cases m'; simp_all
    rw [hmm]

/-- **C48** for histories without `cut` and `remove_last_value_at_point`: the announced length is right, and reading
back gives an equal map. -/
theorem C48_round_trip_partial (ops : List (ZOp I K V)) (picks : Nat → Nat) (hr : ∀ op ∈ ops, op.isRemove = false)
    (hc : ∀ op ∈ ops, op.isCut = false) :
    (after ops).serialize.hint = some (after ops).serialize.elems.length ∧
    deserialize (E := E) ((after ops).serialize.elems.map .ok) picks = .ok (.ok (after ops)) := by
  have hlen := (C42_len_partial ops hr).1
  refine ⟨by rw [serialize, hlen], ?_⟩
  have hnd : NoDup (after ops).inner := (run_ok good_new ops).2.2.2 (by simp [NoDup, new]) hc
  refine (C48_round_trip_exact ops picks).2 ⟨?_, (noDup_iff (good_after ops).inv).1 hnd⟩
  rw [← C48_announced_length_exact, serialize, hlen]

omit [LawfulInterval I K] in
/-- **C48** is false as stated: after a removal the announced length is wrong and the map read back is not equal (the
counter differs); after a `cut` the map read back can differ in its value stores. -/
theorem C48_not_equal :
    (∃ (ops : List (ZOp Demo.U8 (Interval Demo.U8) Nat)) (m : ZosditMap (Interval Demo.U8) Nat),
      (after ops).serialize = ⟨some 2, [(Demo.iv 0 4, 1)]⟩ ∧
      deserialize (E := Unit) ((after ops).serialize.elems.map .ok) (fun _ => 0) = .ok (.ok m) ∧ m ≠ after ops) ∧
    (∃ m : ZosditMap (Interval Demo.U8) Nat,
      deserialize (E := Unit) ((after Demo.zdup).serialize.elems.map .ok) (fun _ => 0) = .ok (.ok m) ∧
      m.iter = (after Demo.zdup).iter ∧ m.length = (after Demo.zdup).length ∧ m ≠ after Demo.zdup) :=
  ⟨⟨[.insertStrictBack (Demo.iv 0 4) 1 0, .insertStrictBack (Demo.iv 8 9) 2 0, .removeLastValueAtPoint (Demo.u8 8)], _,
    by decide, rfl, by decide⟩, _, rfl, by decide, by decide, by decide⟩

/-- the hypotheses of the partial theorem are met by a history with touching and repeated point intervals -/
example : (∀ op ∈ Demo.zops.take 5, op.isRemove = false ∧ op.isCut = false) ∧ (after (Demo.zops.take 5)).iter.length = 5 := by decide
end
end Nodit
