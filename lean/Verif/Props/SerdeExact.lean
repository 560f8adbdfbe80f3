import Verif.Props.SerdeProps
import Verif.Props.ZosditExact
/-!
# C74: exactly what deserialisation does, on every input

`input : List (Except E _)` are the results of the successive `next_element()` calls.
-/
set_option linter.unusedSectionVars false
namespace Nodit
open Spec PointType

variable {I K V E D : Type} [PointType I] [IntervalType I K] [LawfulPoint I] [DecidableEq D]

namespace Spec
/-- a sequence of valid intervals, no two of which clash -/
def Clashless (clash : K → K → Prop) (l : List K) : Prop := (∀ k ∈ l, Valid k) ∧ l.Pairwise (fun a b => ¬ clash a b)

/-- The outcome `r` of reading `input`, elements of which have the interval `key x`:
all elements are readable and valid, none clashes with an earlier one, and a container `m` results with `P m` of the elements; or there is a first
element that is not, and it decides between the error of the format, the custom error and the panic. -/
def Outcome {X M : Type} (key : X → K) (clash : K → K → Prop) (message : String) (P : M → List X → Prop) (input : List (Except E X))
    (r : Res (Except (DeError E) M)) : Prop :=
  (∃ (l : List X) (m : M), input = l.map .ok ∧ Clashless clash (l.map key) ∧ r = .ok (.ok m) ∧ P m l) ∨
  ∃ (pre : List X) (x : Except E X) (post : List (Except E X)), input = pre.map .ok ++ x :: post ∧ Clashless clash (pre.map key) ∧
    ((∃ e, x = .error e ∧ r = .ok (.error (.format e))) ∨
     (∃ y, x = .ok y ∧ Valid (key y) ∧ (∃ z ∈ pre, clash (key z) (key y)) ∧ r = .ok (.error (.custom message))) ∨
     (∃ y, x = .ok y ∧ ¬ Valid (key y) ∧ r = .error .invalidInterval))
end Spec

/-- every input is usable or has a first element that is not -/
theorem first_offender {X : Type} (key : X → K) (clash : K → K → Prop) (input : List (Except E X)) :
    (∃ l : List X, input = l.map .ok ∧ Clashless clash (l.map key)) ∨
    ∃ (pre : List X) (x : Except E X) (post : List (Except E X)), input = pre.map .ok ++ x :: post ∧ Clashless clash (pre.map key) ∧
      ((∃ e, x = .error e) ∨ ∃ y, x = .ok y ∧ (¬ Valid (key y) ∨ Valid (key y) ∧ ∃ z ∈ pre, clash (key z) (key y))) := by
  induction input using List.reverseRecOn with
  | nil => exact Or.inl ⟨[], rfl, by simp [Clashless]⟩
  | append_singleton input a ih =>
    rcases ih with ⟨l, rfl, hl⟩ | ⟨pre, x, post, rfl, h1, h2⟩
    · cases a with
      | error e => exact Or.inr ⟨l, .error e, [], rfl, hl, Or.inl ⟨e, rfl⟩⟩
      | ok a =>
        by_cases hv : Valid (key a)
        · by_cases hc : ∃ z ∈ l, clash (key z) (key a)
          · exact Or.inr ⟨l, .ok a, [], rfl, hl, Or.inr ⟨a, rfl, Or.inr ⟨hv, hc⟩⟩⟩
          · refine Or.inl ⟨l ++ [a], by simp, ?_, ?_⟩
            · intro k hk
              rw [List.map_append] at hk
              rcases List.mem_append.1 hk with hk | hk
              · exact hl.1 k hk
              · simp only [List.map_cons, List.map_nil, List.mem_singleton] at hk; rw [hk]; exact hv
            · rw [List.map_append, List.pairwise_append]
              refine ⟨hl.2, by simp, ?_⟩
              intro k hk b hb ho
              obtain ⟨z, hz, rfl⟩ := List.mem_map.1 hk
              simp only [List.map_cons, List.map_nil, List.mem_singleton] at hb; subst hb
              exact hc ⟨z, hz, ho⟩
        · exact Or.inr ⟨l, .ok a, [], rfl, hl, Or.inr ⟨a, rfl, Or.inl hv⟩⟩
    · exact Or.inr ⟨pre, x, post ++ [a], by simp, h1, h2⟩

theorem disjointed_map {l : List (K × V)} : Clashless Overlap (l.map Prod.fst) ↔
    (∀ e ∈ l, Valid e.1) ∧ l.Pairwise (fun a b => ¬ Overlap a.1 b.1) := by
  unfold Clashless
  rw [List.pairwise_map]
  simp

theorem nodup_of_disjointed {l : List (K × V)} (h : Clashless Overlap (l.map Prod.fst)) : l.Nodup := by
  rw [disjointed_map] at h
  refine List.Pairwise.imp_of_mem ?_ h.2
  rintro a b ha hb hab rfl
  obtain ⟨p, hp⟩ := h.1 a ha
  exact hab ⟨p, hp, hp⟩

theorem nodup_of_wf {l : List (K × V)} (h : WF l) : l.Nodup := by
  refine List.Pairwise.imp_of_mem ?_ h.2
  rintro a b ha hb hab rfl
  obtain ⟨p, hp⟩ := h.1 a ha
  exact lt_irrefl p (hab p p hp hp)

/-- **C74**: for every input, reading a `NoditMap` has the described outcome and no other. -/
theorem C74_map_outcome (input : List (Except E (K × V))) (r : Res (Except (DeError E) (NoditMap K V))) :
    NoditMap.deserialize input = r ↔ Outcome Prod.fst Overlap "intervals overlap" (fun m l => WF m.iter ∧ m.iter.Perm l) input r := by
  have acc : ∀ {l : List (K × V)}, Clashless Overlap (l.map Prod.fst) → ∃ m : NoditMap K V,
      NoditMap.deserialize (E := E) (l.map .ok) = .ok (.ok m) ∧ WF m.iter ∧ m.iter.Perm l := by
    intro l hl
    obtain ⟨m, h1, h2, h3⟩ := C47_map_accepts (E := E) (disjointed_map.1 hl).1 (disjointed_map.1 hl).2
    exact ⟨m, h1, h2, (List.perm_ext_iff_of_nodup (nodup_of_wf h2) (nodup_of_disjointed hl)).2 h3⟩
  constructor
  · rintro rfl
    rcases first_offender Prod.fst Overlap input with ⟨l, rfl, hl⟩ | ⟨pre, x, post, rfl, h1, h2⟩
    · obtain ⟨m, h1, h2⟩ := acc hl
      exact Or.inl ⟨l, m, rfl, hl, h1, h2⟩
    · refine Or.inr ⟨pre, x, post, rfl, h1, ?_⟩
      have h3 := (disjointed_map.1 h1)
      rcases h2 with ⟨e, rfl⟩ | ⟨⟨k, v⟩, rfl, h2 | ⟨hv, ho⟩⟩
      · exact Or.inl ⟨e, rfl, by
          obtain ⟨m, h4, -⟩ := visitSeqFrom_append (wf_new (K := K) (V := V) (I := I)) h3.1 h3.2 (by simp [NoditMap.new, NoditMap.iter]) (.error e :: post)
          rw [NoditMap.deserialize, h4]; rfl⟩
      · exact Or.inr (Or.inr ⟨_, rfl, h2, (C47_map_first_offender (k := k) (v := v) (post := post) h3.1 h3.2).2.2 h2⟩)
      · exact Or.inr (Or.inl ⟨_, rfl, hv, ho, (C47_map_first_offender (k := k) (v := v) (post := post) h3.1 h3.2).2.1 hv ho⟩)
  · rintro (⟨l, m, rfl, hl, rfl, h1, h2⟩ | ⟨pre, x, post, rfl, h1, h2⟩)
    · obtain ⟨m', h3, h4, h5⟩ := acc hl
      rw [h3]
      have : m'.inner = m.inner := (wf_iff_chain.1 h4).ext (wf_iff_chain.1 h1) fun e => by
        show e ∈ m'.iter ↔ e ∈ m.iter
        rw [h5.mem_iff, h2.mem_iff]
      cases m; cases m'; cases this; rfl
    · have h3 := (disjointed_map.1 h1)
      rcases h2 with ⟨e, rfl, rfl⟩ | ⟨⟨k, v⟩, rfl, hv, ho, rfl⟩ | ⟨⟨k, v⟩, rfl, hv, rfl⟩
      · obtain ⟨m, h4, -⟩ := visitSeqFrom_append (wf_new (K := K) (V := V) (I := I)) h3.1 h3.2 (by simp [NoditMap.new, NoditMap.iter]) (.error e :: post)
        rw [NoditMap.deserialize, h4]; rfl
      · exact (C47_map_first_offender (k := k) (v := v) (post := post) h3.1 h3.2).2.1 hv ho
      · exact (C47_map_first_offender (k := k) (v := v) (post := post) h3.1 h3.2).2.2 hv

/-- reading another container that wraps a `NoditMap` -/
theorem Outcome.mapM {X Y M N : Type} {clash : K → K → Prop} {msg : String} {kx : X → K} {ky : Y → K} {φ : Y → X} (hk : ∀ y, kx (φ y) = ky y) {P : M → List X → Prop}
    {Q : N → List Y → Prop} {f : M → N} (hPQ : ∀ m l, P m (l.map φ) → Q (f m) l) {input : List (Except E Y)}
    {r : Res (Except (DeError E) M)} (h : Outcome kx clash msg P (input.map (fun x => x.map φ)) r) :
    Outcome ky clash msg Q input (r.map (fun r => r.map f)) := by
  have hex : ∀ (l : List X) (inp : List (Except E Y)), inp.map (fun x => x.map φ) = l.map .ok → ∃ l' : List Y, inp = l'.map .ok ∧ l'.map φ = l := by
    intro l inp
    induction inp generalizing l with
    | nil => intro h; cases l with
      | nil => exact ⟨[], rfl, rfl⟩
      | cons _ _ => simp at h
    | cons a inp ih =>
      intro h
      cases l with
      | nil => simp at h
      | cons b l =>
        simp only [List.map_cons, List.cons.injEq] at h
        obtain ⟨l', h1, h2⟩ := ih l h.2
        cases a with
        | error e => cases h.1
        | ok y =>
          refine ⟨y :: l', by rw [h1]; rfl, ?_⟩
          have := h.1
          simp only [Except.map] at this
          injection this with this
          rw [List.map_cons, this, h2]
  have hkeys : ∀ l : List Y, (l.map φ).map kx = l.map ky := fun l => by
    rw [List.map_map]; exact List.map_congr_left fun y _ => hk y
  rcases h with ⟨l, m, h1, h2, rfl, h3⟩ | ⟨pre, x, post, h1, h2, h3⟩
  · obtain ⟨l', rfl, rfl⟩ := hex l input h1
    exact Or.inl ⟨l', f m, rfl, by rw [← hkeys]; exact h2, rfl, hPQ _ _ h3⟩
  · obtain ⟨i1, i2, rfl, h4, h5⟩ := List.map_eq_append_iff.1 h1
    obtain ⟨l', rfl, rfl⟩ := hex pre i1 h4
    cases i2 with
    | nil => simp at h5
    | cons y i2 =>
      simp only [List.map_cons, List.cons.injEq] at h5
      refine Or.inr ⟨l', y, i2, rfl, by rw [← hkeys]; exact h2, ?_⟩
      rcases h3 with ⟨e, rfl, rfl⟩ | ⟨z, rfl, hv, ⟨w, hw, ho⟩, rfl⟩ | ⟨z, rfl, hv, rfl⟩
      · cases y with
        | error e' => have := h5.1; simp only [Except.map] at this; cases this; exact Or.inl ⟨e, rfl, rfl⟩
        | ok y => cases h5.1
      · cases y with
        | error e' => cases h5.1
        | ok y =>
          have := h5.1; simp only [Except.map] at this; cases this
          obtain ⟨w', hw', rfl⟩ := List.mem_map.1 hw
          refine Or.inr (Or.inl ⟨y, rfl, by rwa [← hk], ⟨w', hw', by rwa [← hk, ← hk]⟩, rfl⟩)
      · cases y with
        | error e' => cases h5.1
        | ok y =>
          have := h5.1; simp only [Except.map] at this; cases this
          exact Or.inr (Or.inr ⟨y, rfl, by rwa [← hk], rfl⟩)

/-- **C74** for sets -/
theorem C74_set_outcome (input : List (Except E K)) :
    Outcome id Overlap "intervals overlap" (fun (s : NoditSet K) l => Ascending s.iter ∧ s.iter.Perm l) input (NoditSet.deserialize input) := by
  rw [NoditSet.deserialize, set_visit]
  refine Outcome.mapM (kx := Prod.fst) (φ := fun k => (k, ())) (fun _ => rfl) ?_ ((C74_map_outcome _ _).1 rfl)
  rintro m l ⟨h1, h2⟩
  refine ⟨?_, ?_⟩
  · rw [ascending_iff]
    have := wf_iff_chain.1 h1
    refine ⟨fun k hk => ?_, ?_⟩
    · obtain ⟨e, he, rfl⟩ := List.mem_map.1 hk; exact this.1 e he
    · exact List.pairwise_map.2 this.2
  · have := h2.map Prod.fst
    have e : (l.map (fun k => (k, ()))).map Prod.fst = l := by
      rw [List.map_map]; exact List.map_id l
    rw [e] at this
    exact this

/-- **C74** for `Gqdit`s -/
theorem C74_gqdit_outcome (input : List (Except E (K × Finset D))) :
    Outcome Prod.fst Overlap "intervals overlap" (fun (g : Gqdit K D) l => WF g.serialize.elems ∧ g.serialize.elems.Perm l) input (Gqdit.deserialize input) := by
  rw [gq_deserialize]
  have h := (C74_map_outcome input _).1 rfl
  have h' : Outcome Prod.fst Overlap "intervals overlap" (fun (m : NoditMap K (Finset D)) l => WF m.iter ∧ m.iter.Perm l)
      (input.map (fun x => x.map id)) (NoditMap.deserialize input) := by
    have : input.map (fun x => x.map id) = input := by
      rw [List.map_congr_left (g := id), List.map_id]
      intro x _; cases x <;> rfl
    rw [this]; exact h
  exact Outcome.mapM (ky := Prod.fst) (φ := id) (fun _ => rfl) (fun m l hm => by rw [List.map_id] at hm; exact hm) h'

/-- `input` has one outcome only, if at most one container fits given elements: so C74 determines the result of reading. -/
theorem Outcome.unique {X M : Type} {key : X → K} {clash : K → K → Prop} {msg : String} {P : M → List X → Prop}
    (hP : ∀ m m' l, P m l → P m' l → m = m') {input : List (Except E X)} {r r' : Res (Except (DeError E) M)}
    (h : Outcome key clash msg P input r) (h' : Outcome key clash msg P input r') : r = r' := by
  have inj : ∀ {l l' : List X}, l.map (Except.ok (ε := E)) = l'.map .ok → l = l' := fun h =>
    List.map_injective_iff.2 (fun a b hab => by injection hab) h
  -- an offending element cannot be part of a sequence without clashes
  have no : ∀ {pre l : List X} {x : Except E X} {post : List (Except E X)}, l.map .ok = pre.map .ok ++ x :: post →
      Clashless clash (l.map key) →
      ((∃ e, x = .error e) ∨ ∃ y, x = .ok y ∧ (¬ Valid (key y) ∨ Valid (key y) ∧ ∃ z ∈ pre, clash (key z) (key y))) → False := by
    intro pre l x post he hc hx
    obtain ⟨l1, l2, rfl, h1, h2⟩ := List.map_eq_append_iff.1 he
    have := inj h1; subst this
    cases l2 with
    | nil => simp at h2
    | cons y l2 =>
      simp only [List.map_cons, List.cons.injEq] at h2
      obtain ⟨rfl, -⟩ := h2
      rcases hx with ⟨e, hx⟩ | ⟨y', hx, hx'⟩
      · cases hx
      · injection hx with hx; subst hx
        rcases hx' with hv | ⟨-, z, hz, hcl⟩
        · exact hv (hc.1 _ (List.mem_map.2 ⟨y, by simp, rfl⟩))
        · have := hc.2
          rw [List.map_append, List.pairwise_append] at this
          exact this.2.2 _ (List.mem_map.2 ⟨z, hz, rfl⟩) _ (List.mem_map.2 ⟨y, by simp, rfl⟩) hcl
  have off : ∀ {pre : List X} {x : Except E X} {r : Res (Except (DeError E) M)},
      ((∃ e, x = .error e ∧ r = .ok (.error (.format e))) ∨
       (∃ y, x = .ok y ∧ Valid (key y) ∧ (∃ z ∈ pre, clash (key z) (key y)) ∧ r = .ok (.error (.custom msg))) ∨
       (∃ y, x = .ok y ∧ ¬ Valid (key y) ∧ r = .error .invalidInterval)) →
      ((∃ e, x = .error e) ∨ ∃ y, x = .ok y ∧ (¬ Valid (key y) ∨ Valid (key y) ∧ ∃ z ∈ pre, clash (key z) (key y))) := by
    rintro pre x r (⟨e, h, -⟩ | ⟨y, h, hv, hz, -⟩ | ⟨y, h, hv, -⟩)
    · exact Or.inl ⟨e, h⟩
    · exact Or.inr ⟨y, h, Or.inr ⟨hv, hz⟩⟩
    · exact Or.inr ⟨y, h, Or.inl hv⟩
  rcases h with ⟨l, m, rfl, hl, rfl, hm⟩ | ⟨pre, x, post, rfl, hl, hx⟩
  · rcases h' with ⟨l', m', he, hl', rfl, hm'⟩ | ⟨pre, x, post, he, hl', hx⟩
    · have := inj he; subst this
      rw [hP _ _ _ hm hm']
    · exact (no he hl (off hx)).elim
  · rcases h' with ⟨l', m', he, hl', rfl, hm'⟩ | ⟨pre', x', post', he, hl', hx'⟩
    · exact (no he.symm hl' (off hx)).elim
    · rcases List.append_eq_append_iff.1 he with ⟨a, h1, h2⟩ | ⟨a, h1, h2⟩
      · cases a with
        | nil =>
          simp only [List.append_nil, List.nil_append, List.cons.injEq] at h1 h2
          obtain ⟨rfl, rfl⟩ := h2
          have := inj h1; subst this
          rcases hx with ⟨e, rfl, rfl⟩ | ⟨y, rfl, hv, hz, rfl⟩ | ⟨y, rfl, hv, rfl⟩ <;>
            rcases hx' with ⟨e', h, rfl⟩ | ⟨y', h, hv', hz', rfl⟩ | ⟨y', h, hv', rfl⟩ <;> cases h <;> first | rfl | contradiction
        | cons b a =>
          simp only [List.cons_append, List.cons.injEq] at h2
          obtain ⟨rfl, -⟩ := h2
          exact (no h1 hl' (off hx)).elim
      · cases a with
        | nil =>
          simp only [List.append_nil, List.nil_append, List.cons.injEq] at h1 h2
          obtain ⟨rfl, rfl⟩ := h2
          have := inj h1; subst this
          rcases hx with ⟨e, rfl, rfl⟩ | ⟨y, rfl, hv, hz, rfl⟩ | ⟨y, rfl, hv, rfl⟩ <;>
            rcases hx' with ⟨e', h, rfl⟩ | ⟨y', h, hv', hz', rfl⟩ | ⟨y', h, hv', rfl⟩ <;> cases h <;> first | rfl | contradiction
        | cons b a =>
          simp only [List.cons_append, List.cons.injEq] at h2
          obtain ⟨rfl, -⟩ := h2
          exact (no h1 hl (off hx')).elim

/-- **C74** for sets: the described outcome and no other. -/
theorem C74_set_outcome_iff (input : List (Except E K)) (r : Res (Except (DeError E) (NoditSet K))) :
    NoditSet.deserialize input = r ↔
      Outcome id Overlap "intervals overlap" (fun (s : NoditSet K) l => Ascending s.iter ∧ s.iter.Perm l) input r := by
  refine ⟨fun h => h ▸ C74_set_outcome input, fun h => Outcome.unique ?_ (C74_set_outcome input) h⟩
  rintro ⟨⟨m⟩⟩ ⟨⟨m'⟩⟩ l ⟨h1, h2⟩ ⟨h1', h2'⟩
  have hwf : ∀ {m : List (K × Unit)}, Ascending (m.map Prod.fst) → WF m := fun {m} h =>
    ⟨fun e he => h.1 _ (List.mem_map.2 ⟨e, he, rfl⟩), List.pairwise_map.1 h.2⟩
  have hp : (m.map Prod.fst).Perm (m'.map Prod.fst) := h2.trans h2'.symm
  have : m = m' := (wf_iff_chain.1 (hwf h1)).ext (wf_iff_chain.1 (hwf h1')) fun e => by
    have : ∀ l : List (K × Unit), e ∈ l ↔ e.1 ∈ l.map Prod.fst := fun l =>
      ⟨fun h => List.mem_map.2 ⟨e, h, rfl⟩, fun h => by obtain ⟨d, hd, hde⟩ := List.mem_map.1 h; rwa [show e = d from Prod.ext hde.symm rfl]⟩
    show e ∈ m ↔ e ∈ m'
    rw [this m, this m', hp.mem_iff]
  rw [this]

/-- **C74** for `Gqdit`s: the described outcome and no other. -/
theorem C74_gqdit_outcome_iff (input : List (Except E (K × Finset D))) (r : Res (Except (DeError E) (Gqdit K D))) :
    Gqdit.deserialize input = r ↔ Outcome Prod.fst Overlap "intervals overlap"
      (fun (g : Gqdit K D) l => WF g.serialize.elems ∧ g.serialize.elems.Perm l) input r := by
  refine ⟨fun h => h ▸ C74_gqdit_outcome input, fun h => Outcome.unique ?_ (C74_gqdit_outcome input) h⟩
  rintro ⟨⟨m⟩⟩ ⟨⟨m'⟩⟩ l ⟨h1, h2⟩ ⟨h1', h2'⟩
  have : m = m' := (wf_iff_chain.1 h1).ext (wf_iff_chain.1 h1') fun e => by
    show e ∈ (⟨⟨m⟩⟩ : Gqdit K D).serialize.elems ↔ e ∈ (⟨⟨m'⟩⟩ : Gqdit K D).serialize.elems
    rw [h2.mem_iff, h2'.mem_iff]
  rw [this]

/-- **C74**: the elements of a serialised map can be read back in any order. -/
theorem C74_any_order {m : NoditMap K V} (h : WF m.iter) {l : List (K × V)} (hl : l.Perm m.serialize.elems) :
    NoditMap.deserialize (E := E) (l.map .ok) = .ok (.ok m) := by
  rw [C74_map_outcome]
  refine Or.inl ⟨l, m, rfl, ?_, rfl, h, hl.symm⟩
  rw [disjointed_map]
  refine ⟨fun e he => h.1 e (hl.mem_iff.1 he), ?_⟩
  have : m.iter.Pairwise (fun a b => ¬ Overlap a.1 b.1) := h.2.imp (fun hb ⟨p, h1, h2⟩ => lt_irrefl p (hb p p h1 h2))
  exact (hl.pairwise_iff (fun h' ⟨p, h1, h2⟩ => h' ⟨p, h2, h1⟩)).2 this

example : Demo.m.iter.reverse.Perm Demo.m.serialize.elems ∧ Demo.m.iter.reverse ≠ Demo.m.iter ∧
    NoditMap.deserialize (E := Unit) (Demo.m.iter.reverse.map .ok) = .ok (.ok Demo.m) :=
  ⟨List.reverse_perm _, by decide, by decide⟩

/-- **C74**: two inputs whose elements are the same up to order give the same map or both give none. -/
theorem C74_order_irrelevant {l l' : List (K × V)} (hl : l.Perm l') (m : NoditMap K V) :
    NoditMap.deserialize (E := E) (l.map .ok) = .ok (.ok m) ↔ NoditMap.deserialize (E := E) (l'.map .ok) = .ok (.ok m) := by
  have inj : ∀ a b : List (K × V), a.map (Except.ok (ε := E)) = b.map .ok → a = b := fun a b h =>
    List.map_injective_iff.2 (fun x y hxy => by injection hxy) h
  have key : ∀ {l l' : List (K × V)}, l.Perm l' → NoditMap.deserialize (E := E) (l.map .ok) = .ok (.ok m) →
      NoditMap.deserialize (E := E) (l'.map .ok) = .ok (.ok m) := by
    intro l l' hl h
    rcases (C74_map_outcome _ _).1 h with ⟨l0, m0, h1, h2, h3, h4, h5⟩ | ⟨pre, x, post, h1, h2, h3⟩
    · cases h3
      have := inj _ _ h1; subst this
      exact C74_any_order h4 (hl.symm.trans h5.symm)
    · rcases h3 with ⟨e, -, h⟩ | ⟨y, -, -, -, h⟩ | ⟨y, -, -, h⟩ <;> cases h
  exact ⟨key hl, key hl.symm⟩

open Classical in
/-- **C74** for `ZosditMap`s: two elements clash unless they zero-overlap. -/
theorem C74_zosdit_outcome (input : List (Except E (K × V))) (picks : Nat → Nat) :
    Outcome Prod.fst (fun a b => ¬ ZeroOverlap a b) "intervals non-zero-overlap" (fun (m : ZosditMap K V) l =>
      ZWF m.iter ∧ (∀ q : Interval I, Valid q → (m.iter.filter (fun e => SameInterval e.1 q)).map Prod.snd =
        (l.filter (fun e => SameInterval e.1 q)).map Prod.snd) ∧
      (∀ e ∈ m.iter, GivenFirst e.1 l) ∧ m.iter.length = l.length ∧ m.length = l.length)
      input (ZosditMap.deserialize input picks) := by
  have hc : ∀ l : List (K × V), Clashless (fun a b => ¬ ZeroOverlap a b) (l.map Prod.fst) ↔
      (∀ e ∈ l, Valid e.1) ∧ l.Pairwise (fun a b => ZeroOverlap a.1 b.1) := by
    intro l
    unfold Clashless
    rw [List.pairwise_map]
    simp
  rcases first_offender Prod.fst (fun a b : K => ¬ ZeroOverlap a b) input with ⟨l, rfl, hl⟩ | ⟨pre, x, post, rfl, h1, h2⟩
  · obtain ⟨m, h1, h2⟩ := C47_zosdit_accepts (E := E) ((hc l).1 hl).1 ((hc l).1 hl).2 picks
    obtain ⟨m', h3, -, h4, h5, h8, h6, h7⟩ := C45_from_iter_strict_back ((hc l).1 hl).1 ((hc l).1 hl).2 picks
    rw [h2] at h3; cases h3
    exact Or.inl ⟨l, m, rfl, hl, h1, h4, h5, h8, h6, h7⟩
  · refine Or.inr ⟨pre, x, post, rfl, h1, ?_⟩
    have h3 := (hc pre).1 h1
    rcases h2 with ⟨e, rfl⟩ | ⟨⟨k, v⟩, rfl, h2 | ⟨hv, ho⟩⟩
    · refine Or.inl ⟨e, rfl, ?_⟩
      obtain ⟨m, picks', h4, -⟩ := zvisit_append (ZosditMap.good_new (I := I) (K := K) (V := V))
        (by simp [ZosditMap.NoDup, ZosditMap.new]) picks h3.1 h3.2 (by simp [ZosditMap.new, ZosditMap.iter, ZosditMap.flatten]) (.error e :: post)
      rw [ZosditMap.deserialize, h4]; rfl
    · exact Or.inr (Or.inr ⟨_, rfl, h2, (C47_zosdit_first_offender (k := k) (v := v) (post := post) h3.1 h3.2 picks).2.2 h2⟩)
    · exact Or.inr (Or.inl ⟨_, rfl, hv, ho, (C47_zosdit_first_offender (k := k) (v := v) (post := post) h3.1 h3.2 picks).2.1 hv ho⟩)

open Classical in
/-- **C74** for `ZosditMap`s: the described outcome and no other, where of a map one sees `iter()` and `len()`. -/
theorem C74_zosdit_outcome_iff (input : List (Except E (K × V))) (picks : Nat → Nat) (r : Res (Except (DeError E) (List (K × V) × Nat))) :
    (ZosditMap.deserialize input picks).map (Except.map fun m => (m.iter, m.length)) = r ↔
      Outcome Prod.fst (fun a b => ¬ ZeroOverlap a b) "intervals non-zero-overlap" (fun x l =>
        ZWF x.1 ∧ (∀ q : Interval I, Valid q → (x.1.filter (fun e => SameInterval e.1 q)).map Prod.snd =
          (l.filter (fun e => SameInterval e.1 q)).map Prod.snd) ∧
        (∀ e ∈ x.1, GivenFirst e.1 l) ∧ x.1.length = l.length ∧ x.2 = l.length) input r := by
  have hP := C74_zosdit_outcome (I := I) input picks
  have h0 : Outcome Prod.fst (fun a b => ¬ ZeroOverlap a b) "intervals non-zero-overlap" (fun x l =>
        ZWF x.1 ∧ (∀ q : Interval I, Valid q → (x.1.filter (fun e => SameInterval e.1 q)).map Prod.snd =
          (l.filter (fun e => SameInterval e.1 q)).map Prod.snd) ∧
        (∀ e ∈ x.1, GivenFirst e.1 l) ∧ x.1.length = l.length ∧ x.2 = l.length) input
      ((ZosditMap.deserialize input picks).map (Except.map fun m => (m.iter, m.length))) := by
    rcases hP with ⟨l, m, h1, h2, h3, h4⟩ | ⟨pre, x, post, h1, h2, h3⟩
    · exact Or.inl ⟨l, (m.iter, m.length), h1, h2, by rw [h3]; rfl, h4⟩
    · refine Or.inr ⟨pre, x, post, h1, h2, ?_⟩
      rcases h3 with ⟨e, h3, h4⟩ | ⟨y, h3, h5, h6, h4⟩ | ⟨y, h3, h5, h4⟩
      · exact Or.inl ⟨e, h3, by rw [h4]; rfl⟩
      · exact Or.inr (Or.inl ⟨y, h3, h5, h6, by rw [h4]; rfl⟩)
      · exact Or.inr (Or.inr ⟨y, h3, h5, by rw [h4]; rfl⟩)
  refine ⟨fun h => h ▸ h0, fun h => Outcome.unique ?_ h0 h⟩
  rintro ⟨x, n⟩ ⟨x', n'⟩ l ⟨h1, h2, h3, h4, h5⟩ ⟨h1', h2', h3', h4', h5'⟩
  simp only at h1 h2 h3 h4 h5 h1' h2' h3' h4' h5'
  rw [h5, h5', Prod.mk.injEq]
  refine ⟨?_, rfl⟩
  have w := (zwf_iff.1 h1).1
  have w' := (zwf_iff.1 h1').1
  have conv : ∀ (q : Interval I) (l : List (K × V)), (∀ e ∈ l, start e.1 ≤ stop e.1) → start q ≤ stop q →
      l.filter (fun e => decide (SameInterval e.1 q)) = l.filter (sameEnds q) := fun q l hl hq' =>
    List.filter_congr fun e he => by rw [sameEnds, decide_eq_decide]; exact sameInterval_iff (hl e he) hq'
  have hf := zwf_unique h1 h1' fun q => by
    by_cases hq : Valid q
    · have hq' : q.start ≤ q.stop := valid_iff.1 hq
      rw [← conv q _ w hq', ← conv q _ w' hq', h2 q hq, h2' q hq]
    · have nil : ∀ (l : List (K × V)), (∀ e ∈ l, start e.1 ≤ stop e.1) → l.filter (sameEnds q) = [] := by
        intro l hl
        rw [List.filter_eq_nil_iff]
        intro e he hc
        simp only [sameEnds, decide_eq_true_eq] at hc
        refine hq (valid_iff.2 ?_)
        show q.start ≤ q.stop
        rw [← hc.1, ← hc.2]; exact hl e he
      rw [nil _ w, nil _ w']
  have key : ∀ {k k' : K}, GivenFirst k l → GivenFirst k' l → SameInterval k k' → k = k' := by
    rintro k k' ⟨a, e, b, g1, rfl, g2⟩ ⟨a', e', b', g1', rfl, g2'⟩ hs
    rw [g1] at g1'
    have hs' : SameInterval e'.1 e.1 := fun p => (hs p).symm
    rcases List.append_eq_append_iff.1 g1' with ⟨c, hc1, hc2⟩ | ⟨c, hc1, hc2⟩
    · cases c with
      | nil => simp only [List.nil_append, List.cons.injEq] at hc2; rw [hc2.1]
      | cons x c =>
        simp only [List.cons_append, List.cons.injEq] at hc2
        exact absurd hs (g2' e (by rw [hc1, hc2.1]; simp))
    · cases c with
      | nil => simp only [List.nil_append, List.cons.injEq] at hc2; rw [hc2.1]
      | cons x c =>
        simp only [List.cons_append, List.cons.injEq] at hc2
        exact absurd hs' (g2 e' (by rw [hc1, hc2.1]; simp))
  clear h1 h2 h4 h1' h2' h4' w w'
  induction hf with
  | nil => rfl
  | @cons a b x x' hab _ ih =>
    rw [ih (fun e he => h3 e (by simp [he])) (fun e he => h3' e (by simp [he])),
      show a = b from Prod.ext (key (h3 a (by simp)) (h3' b (by simp)) hab.1) hab.2]

/-- **C74** for `ZosditMap`s: the shape of the inner tree (`picks`) plays no role for what deserialising returns, not even for the value
stores behind the entries. -/
theorem C74_zosdit_any_tree (input : List (Except E (K × V))) (picks picks' : Nat → Nat) :
    ZosditMap.deserialize input picks = ZosditMap.deserialize input picks' := by
  have h := (C74_zosdit_outcome_iff (I := I) input picks _).1 rfl
  have h' := (C74_zosdit_outcome_iff (I := I) input picks' _).2 h
  have good : ∀ (picks : Nat → Nat) (m : ZosditMap K V), ZosditMap.deserialize input picks = .ok (.ok m) →
      ZosditMap.Good m ∧ ZosditMap.NoDup m.inner := by
    intro picks m hm
    have ho := C74_zosdit_outcome (I := I) input picks
    rw [hm] at ho
    rcases ho with ⟨l, m', rfl, h2, h3, -⟩ | ⟨pre, x, post, h1, h2, h3⟩
    · cases h3
      have hv : ∀ e ∈ l, Valid e.1 := fun e he => h2.1 _ (List.mem_map.2 ⟨e, he, rfl⟩)
      have hz : l.Pairwise (fun a b => ZeroOverlap a.1 b.1) := (List.pairwise_map.1 h2.2).imp not_not.1
      obtain ⟨m2, a1, a2⟩ := C47_zosdit_accepts (E := E) hv hz picks
      rw [hm] at a1; cases a1
      obtain ⟨m3, picks', g1, g2, g3, -⟩ := fromIterFrom_append (ZosditMap.good_new (I := I) (K := K) (V := V))
        (by simp [ZosditMap.NoDup, ZosditMap.new]) picks hv hz (by simp [ZosditMap.new, ZosditMap.iter, ZosditMap.flatten]) []
      rw [List.append_nil] at g1
      have g1' : ZosditMap.fromIterStrictBack l picks = .ok (.ok m3) := by rw [ZosditMap.fromIterStrictBack, g1]; rfl
      rw [a2] at g1'; cases g1'
      exact ⟨g2, g3⟩
    · rcases h3 with ⟨e, -, h⟩ | ⟨y, -, -, -, h⟩ | ⟨y, -, -, h⟩ <;> cases h
  rcases hd : ZosditMap.deserialize input picks with e | r <;> rcases hd' : ZosditMap.deserialize input picks' with e' | r' <;>
    rw [hd, hd'] at h'
  · simp only [Except.map, Except.error.injEq] at h'; rw [h']
  · simp [Except.map] at h'
  · simp [Except.map] at h'
  · rcases r with e | m <;> rcases r' with e' | m' <;> simp only [Except.map, Except.ok.injEq, Except.error.injEq, reduceCtorEq, Prod.mk.injEq] at h'
    · rw [h']
    · obtain ⟨g1, g2⟩ := good picks m hd
      obtain ⟨g1', g2'⟩ := good picks' m' hd'
      have hi : m'.inner = m.inner := flatten_inj g1'.inv g2' g1.inv g2 h'.1
      have hl : m'.len = m.len := h'.2
      cases m; cases m'; simp_all

example : ZosditMap.deserialize (E := Unit) [.ok (Demo.iv 0 4, 1), .ok (Demo.iv 4 4, 2), .ok (Demo.iv 3 6, 3), .error ()] (fun _ => 0)
    = .ok (.error (.custom "intervals non-zero-overlap")) := by decide

end Nodit
