import Verif.Program
import Verif.Props.SetHistory
import Verif.Props.FromIter
import Verif.Props.SerdeExact
import Verif.Props.CrashGqProps
import Verif.Props.CrashZProps
import Verif.Props.GqditHoles
/-!
# C99: programs with several containers
-/
set_option linter.unusedSectionVars false
namespace Nodit
open Spec PointType

namespace Prog
variable {ι C Call Out Src BOut S : Type} [DecidableEq ι]

/-- the container is simulated by the reference, `R c s` relating a container with an abstract value -/
structure Simulates (L : Container C Call Out Src BOut) (A : Reference S Call Out Src BOut) (R : C → S → Prop) : Prop where
  new : R L.new A.empty
  call : ∀ c s op, R c s → ∃ s', R (L.call c op).1 s' ∧ A.call s op s' (L.call c op).2
  build : ∀ src, (∃ c s, (L.build src).1 = some c ∧ R c s ∧ A.build src (some s) (L.build src).2) ∨
    ((L.build src).1 = none ∧ A.build src none (L.build src).2)
  clone : ∀ c s n, R c s → (∃ c', L.clone c n = some c' ∧ R c' s) ∨ (L.clone c n = none ∧ n ≠ none)

theorem Simulates.exec {L : Container C Call Out Src BOut} {A : Reference S Call Out Src BOut} {R : C → S → Prop} (h : Simulates L A R)
    {st : ι → C} {σ : ι → S} (hR : ∀ x, R (st x) (σ x)) (s : Stmt ι Call Src) :
    ∃ σ', (∀ x, R ((exec L st s).1 x) (σ' x)) ∧ SpecStmt A σ s σ' (exec L st s).2 := by
  have upd : ∀ {c s} (x : ι), R c s → ∀ z, R (Function.update st x c z) (Function.update σ x s z) := by
    intro c s x hc z
    by_cases hz : z = x
    · subst hz; simpa using hc
    · simpa [hz] using hR z
  cases s with
  | new x => exact ⟨_, upd x h.new, .new σ x⟩
  | build x src =>
    rcases hb : L.build src with ⟨_ | c, o⟩
    · rcases h.build src with ⟨c, s, h1, -⟩ | ⟨-, h1⟩
      · rw [hb] at h1; cases h1
      · rw [hb] at h1
        simp only [Prog.exec, hb]
        exact ⟨σ, hR, .notBuilt h1⟩
    · rcases h.build src with ⟨c', s, h1, h2, h3⟩ | ⟨h1, -⟩
      · rw [hb] at h1 h3; cases h1
        simp only [Prog.exec, hb]
        exact ⟨_, upd x h2, .built h3⟩
      · rw [hb] at h1; cases h1
  | clone x y n =>
    rcases h.clone _ _ n (hR y) with ⟨c, h1, h2⟩ | ⟨h1, h2⟩
    · simp only [Prog.exec, h1]
      exact ⟨_, upd x h2, .clone σ x y n⟩
    · simp only [Prog.exec, h1]
      cases n with
      | none => exact absurd rfl h2
      | some n => exact ⟨σ, hR, .clonePanicked σ x y n⟩
  | take x y =>
    refine ⟨_, fun z => ?_, .take σ x y⟩
    simp only [Prog.exec, Function.update_apply]
    split_ifs
    · exact hR y
    · exact h.new
    · exact hR z
  | swap x y =>
    refine ⟨_, fun z => ?_, .swap σ x y⟩
    simp only [Prog.exec, Function.update_apply]
    split_ifs
    · exact hR y
    · exact hR x
    · exact hR z
  | call x op =>
    obtain ⟨s', h1, h2⟩ := h.call _ _ op (hR x)
    exact ⟨_, upd x h1, .call h2⟩

theorem Simulates.execAll {L : Container C Call Out Src BOut} {A : Reference S Call Out Src BOut} {R : C → S → Prop} (h : Simulates L A R)
    (ss : List (Stmt ι Call Src)) {st : ι → C} {σ : ι → S} (hR : ∀ x, R (st x) (σ x)) :
    ∃ σ', (∀ x, R ((execAll L st ss).1 x) (σ' x)) ∧ SpecProg A σ ss σ' (execAll L st ss).2 := by
  induction ss generalizing st σ with
  | nil => exact ⟨σ, hR, .nil σ⟩
  | cons s ss ih =>
    obtain ⟨σ', h1, h2⟩ := h.exec hR s
    obtain ⟨σ'', h3, h4⟩ := ih h1
    exact ⟨σ'', h3, .cons h2 h4⟩
end Prog

section
variable {I K V E : Type} [PointType I] [IntervalType I K] [LawfulPoint I]

/-- all elements are usable, or there is a first one that is not -/
theorem usable_or_first_bad {X : Type} (key : X → K) (clash : K → K → Prop) (l : List X) :
    ((∀ x ∈ l, Valid (key x)) ∧ l.Pairwise (fun a b => ¬ clash (key a) (key b))) ∨
    ∃ pre x post, l = pre ++ x :: post ∧ FirstBad key clash pre x := by
  have conv : ∀ l : List X, Clashless clash (l.map key) ↔ (∀ x ∈ l, Valid (key x)) ∧ l.Pairwise (fun a b => ¬ clash (key a) (key b)) := by
    intro l; unfold Clashless; rw [List.pairwise_map]; simp
  have inj : ∀ {l l' : List X}, l.map (Except.ok (ε := Unit)) = l'.map .ok → l = l' := fun h =>
    List.map_injective_iff.2 (fun a b hab => by injection hab) h
  rcases first_offender (E := Unit) key clash (l.map .ok) with ⟨l', h1, h2⟩ | ⟨pre, x, post, h1, h2, h3⟩
  · cases inj h1; exact Or.inl ((conv l).1 h2)
  · obtain ⟨l1, l2, rfl, h4, h5⟩ := List.map_eq_append_iff.1 h1
    have := inj h4; subst this
    cases l2 with
    | nil => simp at h5
    | cons y l2 =>
      simp only [List.map_cons, List.cons.injEq] at h5
      obtain ⟨rfl, -⟩ := h5
      refine Or.inr ⟨l1, y, l2, rfl, ((conv l1).1 h2).1, ((conv l1).1 h2).2, ?_⟩
      rcases h3 with ⟨e, he⟩ | ⟨z, hz, h3⟩
      · cases he
      · cases hz; exact h3.imp id And.right

theorem buildsFrom_serde {X W M : Type} {key : X → K} {clash : K → K → Prop} {value : X → W} {msg : String} {P : M → List X → Prop}
    {input : List (Except E X)} {r : Res (Except (DeError E) M)} (h : Outcome key clash msg P input r) :
    (∃ m l, NoditMap.okPart r = some m ∧ P m l ∧
      BuildsFrom key clash value msg (.serde input) (some l) (.serde (r.map (fun r => r.map (fun _ => ()))))) ∨
    (NoditMap.okPart r = none ∧ BuildsFrom key clash value msg (.serde input) none (.serde (r.map (fun r => r.map (fun _ => ()))))) := by
  have conv : ∀ l : List X, Clashless clash (l.map key) ↔ (∀ x ∈ l, Valid (key x)) ∧ l.Pairwise (fun a b => ¬ clash (key a) (key b)) := by
    intro l; unfold Clashless; rw [List.pairwise_map]; simp
  rcases h with ⟨l, m, rfl, h1, rfl, h2⟩ | ⟨pre, x, post, rfl, h1, h2⟩
  · exact Or.inl ⟨m, l, rfl, h2, Or.inl ⟨l, rfl, ((conv l).1 h1).1, ((conv l).1 h1).2, rfl, rfl⟩⟩
  · right
    have h1 := (conv pre).1 h1
    rcases h2 with ⟨e, rfl, rfl⟩ | ⟨y, rfl, hv, hc, rfl⟩ | ⟨y, rfl, hv, rfl⟩
    · exact ⟨rfl, Or.inr (Or.inl ⟨pre, e, post, rfl, h1.1, h1.2, rfl, rfl⟩)⟩
    · exact ⟨rfl, Or.inr (Or.inr ⟨pre, y, post, rfl, ⟨h1.1, h1.2, Or.inr hc⟩, rfl, Or.inr ⟨hv, rfl⟩⟩)⟩
    · exact ⟨rfl, Or.inr (Or.inr ⟨pre, y, post, rfl, ⟨h1.1, h1.2, Or.inl hv⟩, rfl, Or.inl ⟨hv, rfl⟩⟩)⟩
end

section
variable {I K V E : Type} [PointType I] [IntervalType I K] [LawfulPoint I] [LawfulInterval I K] [BEq V]

theorem map_build_ok (src : Source (K × V) E) :
    (∃ c S, (NoditMap.build src).1 = some c ∧ (WF c.iter ∧ c.entrySet = S) ∧
      (∃ r, BuildsFrom Prod.fst Overlap Prod.snd "intervals overlap" src r (NoditMap.build src).2 ∧ some S = r.map (fun l => {e | e ∈ l}))) ∨
    ((NoditMap.build src).1 = none ∧
      (∃ r, BuildsFrom Prod.fst Overlap Prod.snd "intervals overlap" src r (NoditMap.build src).2 ∧
        (none : Option (Set (K × V))) = r.map (fun l => {e | e ∈ l}))) := by
  have iter : ∀ l : List (K × V), (∃ m, NoditMap.fromIterStrict l = .ok (.ok m) ∧ NoditMap.fromSliceStrict l = .ok (.ok m) ∧ WF m.iter ∧
      (∀ e, e ∈ m.iter ↔ e ∈ l) ∧ (∀ x ∈ l, Valid x.1) ∧ l.Pairwise (fun a b => ¬ Overlap a.1 b.1)) ∨
      (∃ pre x post, l = pre ++ x :: post ∧ FirstBad Prod.fst Overlap pre x ∧
        ((¬ Valid x.1 ∧ NoditMap.fromIterStrict l = .error .invalidInterval ∧ NoditMap.fromSliceStrict l = .error .invalidInterval) ∨
         (Valid x.1 ∧ NoditMap.fromIterStrict l = .ok (.error ⟨x.2⟩) ∧ NoditMap.fromSliceStrict l = .ok (.error ⟨x.2⟩)))) := by
    intro l
    rcases usable_or_first_bad Prod.fst Overlap l with ⟨h1, h2⟩ | ⟨pre, x, post, rfl, hb⟩
    · obtain ⟨m, h3, h4, h5, h6, -⟩ := C17_from_iter_strict_disjoint h1 h2
      exact Or.inl ⟨m, h3, h4, h5, h6, h1, h2⟩
    · obtain ⟨g1, g2⟩ := C17_from_iter_strict_first_offender (k := x.1) (v := x.2) (post := post) hb.1 hb.2
      obtain ⟨g3, g4⟩ := C17_from_slice_strict_first_offender (k := x.1) (v := x.2) (post := post) hb.1 hb.2
      refine Or.inr ⟨pre, x, post, rfl, hb, ?_⟩
      by_cases hv : Valid x.1
      · exact Or.inr ⟨hv, g1 hv (hb.3.resolve_left (fun h => h hv)), g3 hv (hb.3.resolve_left (fun h => h hv))⟩
      · exact Or.inl ⟨hv, g2 hv, g4 hv⟩
  have set_eq : ∀ {m : NoditMap K V} {l : List (K × V)}, (∀ e, e ∈ m.iter ↔ e ∈ l) → m.entrySet = {e | e ∈ l} := by
    intro m l h; ext e; exact h e
  cases src with
  | iter l =>
    rcases iter l with ⟨m, h1, -, h2, h3, h4, h5⟩ | ⟨pre, x, post, rfl, hb, ⟨hv, h1, -⟩ | ⟨hv, h1, -⟩⟩
    · left
      simp only [NoditMap.build, h1]
      exact ⟨m, _, rfl, ⟨h2, set_eq h3⟩, some l, Or.inl ⟨h4, h5, rfl, rfl⟩, rfl⟩
    · right
      simp only [NoditMap.build, h1]
      exact ⟨rfl, none, Or.inr ⟨pre, x, post, rfl, hb, rfl, Or.inl ⟨hv, rfl⟩⟩, rfl⟩
    · right
      simp only [NoditMap.build, h1]
      exact ⟨rfl, none, Or.inr ⟨pre, x, post, rfl, hb, rfl, Or.inr ⟨hv, rfl⟩⟩, rfl⟩
  | slice l =>
    rcases iter l with ⟨m, -, h1, h2, h3, h4, h5⟩ | ⟨pre, x, post, rfl, hb, ⟨hv, -, h1⟩ | ⟨hv, -, h1⟩⟩
    · left
      simp only [NoditMap.build, h1]
      exact ⟨m, _, rfl, ⟨h2, set_eq h3⟩, some l, Or.inl ⟨h4, h5, rfl, rfl⟩, rfl⟩
    · right
      simp only [NoditMap.build, h1]
      exact ⟨rfl, none, Or.inr ⟨pre, x, post, rfl, hb, rfl, Or.inl ⟨hv, rfl⟩⟩, rfl⟩
    · right
      simp only [NoditMap.build, h1]
      exact ⟨rfl, none, Or.inr ⟨pre, x, post, rfl, hb, rfl, Or.inr ⟨hv, rfl⟩⟩, rfl⟩
  | serde input =>
    rcases buildsFrom_serde (value := Prod.snd) ((C74_map_outcome input _).1 rfl) with ⟨m, l, h1, ⟨h2, h3⟩, h4⟩ | ⟨h1, h2⟩
    · exact Or.inl ⟨m, _, h1, ⟨h2, set_eq (fun e => h3.mem_iff)⟩, some l, h4, rfl⟩
    · exact Or.inr ⟨h1, none, h2, rfl⟩

/-- `NoditMap` is simulated by sets of entries -/
theorem map_simulates : Prog.Simulates (NoditMap.asContainer (K := K) (V := V) (I := I) (E := E)) mapReference
    (fun m S => WF m.iter ∧ m.entrySet = S) where
  new := ⟨wf_new, by ext x; simp [NoditMap.asContainer, mapReference, NoditMap.entrySet, NoditMap.new, NoditMap.iter]⟩
  call := by
    rintro m _ ⟨op, n⟩ ⟨h, rfl⟩
    have := crash_run h [(op, n)]
    obtain ⟨h1, h2⟩ := this
    cases h2 with
    | cons h3 h4 =>
      cases h4
      refine ⟨_, ⟨h1, rfl⟩, h3, ?_⟩
      rintro rfl hu
      rcases Crash.step_cases h op none with ⟨o, h5, -⟩ | ⟨h5, -⟩ | ⟨-, h5, -⟩
      · simp only [NoditMap.asContainer] at hu; rw [hu] at h5; cases h5
      · simp only [NoditMap.asContainer] at hu; rw [hu] at h5; cases h5
      · exact h5 rfl
  build := map_build_ok
  clone := by
    rintro m S n ⟨h1, h2⟩
    cases n with
    | none => exact Or.inl ⟨m, rfl, h1, h2⟩
    | some n =>
      simp only [NoditMap.asContainer, NoditMap.clone]
      split_ifs with hn
      · exact Or.inl ⟨_, rfl, h1, h2⟩
      · exact Or.inr ⟨rfl, by simp⟩

/-- **C99**, `NoditMap`: in every program with any number of maps - created, built from sequences or serialised data, cloned, moved,
swapped and called, with any panic caught - every map has valid, ascending, disjoint entries at every moment, and every statement
returns and does what it would do on plain sets of entries, each variable holding its own. -/
theorem C99_nodit_map_programs {ι : Type} [DecidableEq ι] (prog : List (Prog.Stmt ι (Op I K V × Option Nat) (Source (K × V) E))) :
    let r := Prog.execAll (NoditMap.asContainer (K := K) (V := V) (I := I) (E := E)) (fun _ => NoditMap.new) prog
    (∀ x, WF (r.1 x).iter) ∧ Prog.SpecProg mapReference (fun _ => ∅) prog (fun x => (r.1 x).entrySet) r.2 := by
  intro r
  obtain ⟨σ', h1, h2⟩ := map_simulates.execAll prog (st := fun _ => NoditMap.new) (σ := fun _ : ι => (∅ : Set (K × V))) (fun _ => (map_simulates (E := E)).new)
  have : σ' = fun x => (r.1 x).entrySet := by funext x; exact (h1 x).2.symm
  rw [this] at h2
  exact ⟨fun x => (h1 x).1, h2⟩
end

section
variable {I K V E : Type} [PointType I] [IntervalType I K] [LawfulPoint I] [LawfulInterval I K]

theorem set_build_ok (src : Source K E) :
    (∃ c S, (NoditSet.build src).1 = some c ∧ (Ascending c.iter ∧ c.keySet = S) ∧
      (∃ r, BuildsFrom id Overlap (fun _ => ()) "intervals overlap" src r (NoditSet.build src).2 ∧ some S = r.map (fun l => {k | k ∈ l}))) ∨
    ((NoditSet.build src).1 = none ∧
      (∃ r, BuildsFrom id Overlap (fun _ => ()) "intervals overlap" src r (NoditSet.build src).2 ∧
        (none : Option (Set K)) = r.map (fun l => {k | k ∈ l}))) := by
  have iter : ∀ l : List K, (∃ s, NoditSet.fromIterStrict l = .ok (.ok s) ∧ NoditSet.fromSliceStrict l = .ok (.ok s) ∧ Ascending s.iter ∧
      (∀ k, k ∈ s.iter ↔ k ∈ l) ∧ (∀ k ∈ l, Valid k) ∧ l.Pairwise (fun a b => ¬ Overlap a b)) ∨
      (∃ pre x post, l = pre ++ x :: post ∧ FirstBad id Overlap pre x ∧
        ((¬ Valid x ∧ NoditSet.fromIterStrict l = .error .invalidInterval ∧ NoditSet.fromSliceStrict l = .error .invalidInterval) ∨
         (Valid x ∧ NoditSet.fromIterStrict l = .ok (.error ⟨()⟩) ∧ NoditSet.fromSliceStrict l = .ok (.error ⟨()⟩)))) := by
    intro l
    rcases usable_or_first_bad id Overlap l with ⟨h1, h2⟩ | ⟨pre, x, post, rfl, hb⟩
    · obtain ⟨m, h3, h4, h5, h6, -⟩ := (C22_set_from_iter h1).1 h2
      exact Or.inl ⟨m, h3, h4, h5, h6, h1, h2⟩
    · obtain ⟨g1, g2⟩ := C22_set_from_iter_first_offender (k := x) (post := post) hb.1 hb.2
      refine Or.inr ⟨pre, x, post, rfl, hb, ?_⟩
      by_cases hv : Valid x
      · exact Or.inr ⟨hv, g1 hv (hb.3.resolve_left (fun h => h hv))⟩
      · exact Or.inl ⟨hv, g2 hv⟩
  have set_eq : ∀ {s : NoditSet K} {l : List K}, (∀ k, k ∈ s.iter ↔ k ∈ l) → s.keySet = {k | k ∈ l} := by
    intro m l h; ext e; exact h e
  cases src with
  | iter l =>
    rcases iter l with ⟨m, h1, -, h2, h3, h4, h5⟩ | ⟨pre, x, post, rfl, hb, ⟨hv, h1, -⟩ | ⟨hv, h1, -⟩⟩
    · left
      simp only [NoditSet.build, h1]
      exact ⟨m, _, rfl, ⟨h2, set_eq h3⟩, some l, Or.inl ⟨h4, h5, rfl, rfl⟩, rfl⟩
    · right
      simp only [NoditSet.build, h1]
      exact ⟨rfl, none, Or.inr ⟨pre, x, post, rfl, hb, rfl, Or.inl ⟨hv, rfl⟩⟩, rfl⟩
    · right
      simp only [NoditSet.build, h1]
      exact ⟨rfl, none, Or.inr ⟨pre, x, post, rfl, hb, rfl, Or.inr ⟨hv, rfl⟩⟩, rfl⟩
  | slice l =>
    rcases iter l with ⟨m, -, h1, h2, h3, h4, h5⟩ | ⟨pre, x, post, rfl, hb, ⟨hv, -, h1⟩ | ⟨hv, -, h1⟩⟩
    · left
      simp only [NoditSet.build, h1]
      exact ⟨m, _, rfl, ⟨h2, set_eq h3⟩, some l, Or.inl ⟨h4, h5, rfl, rfl⟩, rfl⟩
    · right
      simp only [NoditSet.build, h1]
      exact ⟨rfl, none, Or.inr ⟨pre, x, post, rfl, hb, rfl, Or.inl ⟨hv, rfl⟩⟩, rfl⟩
    · right
      simp only [NoditSet.build, h1]
      exact ⟨rfl, none, Or.inr ⟨pre, x, post, rfl, hb, rfl, Or.inr ⟨hv, rfl⟩⟩, rfl⟩
  | serde input =>
    rcases buildsFrom_serde (value := fun _ => ()) (C74_set_outcome input) with ⟨m, l, h1, ⟨h2, h3⟩, h4⟩ | ⟨h1, h2⟩
    · exact Or.inl ⟨m, _, h1, ⟨h2, set_eq (fun e => h3.mem_iff)⟩, some l, h4, rfl⟩
    · exact Or.inr ⟨h1, none, h2, rfl⟩

/-- `NoditSet` is simulated by sets of intervals -/
theorem set_simulates : Prog.Simulates (NoditSet.asContainer (K := K) (I := I) (E := E)) setReference
    (fun s S => Ascending s.iter ∧ s.keySet = S) where
  new := ⟨NoditSet.wf_iff.1 wf_new, by ext x; simp [NoditSet.asContainer, setReference, NoditSet.keySet, NoditSet.new, NoditSet.iter, NoditMap.new, NoditMap.iter]⟩
  call := by
    rintro s _ ⟨op, n⟩ ⟨h, rfl⟩
    have hw := NoditSet.wf_iff.2 h
    obtain ⟨h1, h2⟩ := crash_run hw [(op.toMap, n)]
    have h3 := setCrashRun_of (ops := [op]) h2
    rw [keysOf_entrySet] at h3
    cases h3 with
    | cons h4 h5 =>
      cases h5
      refine ⟨_, ⟨NoditSet.wf_iff.1 h1, rfl⟩, ?_, ?_⟩
      · have e := keysOf_entrySet (NoditSet.asContainer (K := K) (I := I) (E := E) |>.call s (op, n)).1
        rw [← e]; exact h4
      · rintro rfl hu
        simp only [NoditSet.asContainer, Crash.setStep] at hu
        rcases Crash.step_cases hw op.toMap none with ⟨o, h5, -⟩ | ⟨h5, -⟩ | ⟨-, h5, -⟩
        · rw [h5] at hu; cases hu
        · rw [h5] at hu; cases hu
        · exact h5 rfl
  build := set_build_ok
  clone := fun s S n h => Or.inl ⟨s, rfl, h⟩

/-- **C99**, `NoditSet`: as for maps, on plain sets of intervals. -/
theorem C99_nodit_set_programs {ι : Type} [DecidableEq ι] (prog : List (Prog.Stmt ι (SetCall I K × Option Nat) (Source K E))) :
    let r := Prog.execAll (NoditSet.asContainer (K := K) (I := I) (E := E)) (fun _ => NoditSet.new) prog
    (∀ x, Ascending (r.1 x).iter) ∧ Prog.SpecProg setReference (fun _ => ∅) prog (fun x => (r.1 x).keySet) r.2 := by
  intro r
  obtain ⟨σ', h1, h2⟩ := set_simulates.execAll prog (st := fun _ => NoditSet.new) (σ := fun _ : ι => (∅ : Set K)) (fun _ => (set_simulates (E := E)).new)
  have : σ' = fun x => (r.1 x).keySet := by funext x; exact (h1 x).2.symm
  rw [this] at h2
  exact ⟨fun x => (h1 x).1, h2⟩
end

section
variable {I K V E : Type} [PointType I] [IntervalType I K] [LawfulPoint I] [LawfulInterval I K]
open ZosditMap

theorem zosdit_from_iter {l : List (K × V)} (hv : ∀ e ∈ l, Valid e.1) (hz : l.Pairwise (fun a b => ¬ ¬ ZeroOverlap a.1 b.1)) (picks : Nat → Nat) :
    ∃ m s, fromIterStrictBack l picks = .ok (.ok m) ∧ fromSliceStrictBack l picks = .ok (.ok m) ∧
      ZosditMap.deserialize (E := E) (l.map .ok) picks = .ok (.ok m) ∧ Represents m s ∧ ZBuilt l s := by
  have hz : l.Pairwise (fun a b => ZeroOverlap a.1 b.1) := hz.imp (fun h => not_not.1 h)
  obtain ⟨m, h1, h2, h3, h4, h5, h6, h7⟩ := C45_from_iter_strict_back hv hz picks
  obtain ⟨m', h8, h9⟩ := C47_zosdit_accepts (E := E) hv hz picks
  rw [h1] at h9; cases h9
  obtain ⟨m', picks', g1, g2, g3, g4, g5, -⟩ := fromIterFrom_append (good_new (I := I) (K := K) (V := V)) (by simp [NoDup, new])
    picks hv hz (by simp [new, iter, flatten]) []
  rw [List.append_nil] at g1
  have g1' : fromIterStrictBack l picks = .ok (.ok m') := by rw [fromIterStrictBack, g1]; rfl
  rw [h1] at g1'; cases g1'
  refine ⟨m, ⟨m.iter, 0, false⟩, h1, h2, h8, ⟨g2, rfl, ?_, fun _ => g3⟩, h3, h6, h5, h4, rfl, rfl⟩
  show m.len = m.iter.length + 0
  rw [g4, g5]; simp [new, iter, flatten]

theorem zosdit_build_ok (src : (Nat → Nat) × Source (K × V) E) :
    (∃ c s, (ZosditMap.build src.1 src.2).1 = some c ∧ Represents c s ∧ zReference.build src (some s) (ZosditMap.build src.1 src.2).2) ∨
    ((ZosditMap.build src.1 src.2).1 = none ∧ zReference.build src none (ZosditMap.build src.1 src.2).2) := by
  obtain ⟨picks, src⟩ := src
  have iter : ∀ l : List (K × V), (∃ m s, fromIterStrictBack l picks = .ok (.ok m) ∧ fromSliceStrictBack l picks = .ok (.ok m) ∧
        Represents m s ∧ ZBuilt l s ∧ (∀ x ∈ l, Valid x.1) ∧ l.Pairwise (fun a b => ¬ ¬ ZeroOverlap a.1 b.1)) ∨
      (∃ pre x post, l = pre ++ x :: post ∧ FirstBad Prod.fst (fun a b : K => ¬ ZeroOverlap a b) pre x ∧
        ((¬ Valid x.1 ∧ fromIterStrictBack l picks = .error .invalidInterval ∧ fromSliceStrictBack l picks = .error .invalidInterval) ∨
         (Valid x.1 ∧ fromIterStrictBack l picks = .ok (.error ⟨x.2⟩) ∧ fromSliceStrictBack l picks = .ok (.error ⟨x.2⟩)))) := by
    intro l
    rcases usable_or_first_bad Prod.fst (fun a b : K => ¬ ZeroOverlap a b) l with ⟨h1, h2⟩ | ⟨pre, x, post, rfl, hb⟩
    · obtain ⟨m, s, h3, h4, -, h5, h6⟩ := zosdit_from_iter (E := E) h1 h2 picks
      exact Or.inl ⟨m, s, h3, h4, h5, h6, h1, h2⟩
    · have hz : pre.Pairwise (fun a b => ZeroOverlap a.1 b.1) := hb.2.imp (fun h => not_not.1 h)
      obtain ⟨g1, g2⟩ := C45_first_offender (k := x.1) (v := x.2) (post := post) hb.1 hz picks
      obtain ⟨g3, g4⟩ := C45_from_slice_first_offender (k := x.1) (v := x.2) (post := post) hb.1 hz picks
      refine Or.inr ⟨pre, x, post, rfl, hb, ?_⟩
      by_cases hv : Valid x.1
      · exact Or.inr ⟨hv, g1 hv (hb.3.resolve_left (fun h => h hv)), g3 hv (hb.3.resolve_left (fun h => h hv))⟩
      · exact Or.inl ⟨hv, g2 hv, g4 hv⟩
  cases src with
  | iter l =>
    rcases iter l with ⟨m, s, h1, -, h2, h3, h4, h5⟩ | ⟨pre, x, post, rfl, hb, ⟨hv, h1, -⟩ | ⟨hv, h1, -⟩⟩
    · left
      simp only [ZosditMap.build, h1]
      exact ⟨m, s, rfl, h2, some l, Or.inl ⟨h4, h5, rfl, rfl⟩, Or.inr ⟨l, s, rfl, rfl, h3⟩⟩
    · right
      simp only [ZosditMap.build, h1]
      exact ⟨rfl, none, Or.inr ⟨pre, x, post, rfl, hb, rfl, Or.inl ⟨hv, rfl⟩⟩, Or.inl ⟨rfl, rfl⟩⟩
    · right
      simp only [ZosditMap.build, h1]
      exact ⟨rfl, none, Or.inr ⟨pre, x, post, rfl, hb, rfl, Or.inr ⟨hv, rfl⟩⟩, Or.inl ⟨rfl, rfl⟩⟩
  | slice l =>
    rcases iter l with ⟨m, s, -, h1, h2, h3, h4, h5⟩ | ⟨pre, x, post, rfl, hb, ⟨hv, -, h1⟩ | ⟨hv, -, h1⟩⟩
    · left
      simp only [ZosditMap.build, h1]
      exact ⟨m, s, rfl, h2, some l, Or.inl ⟨h4, h5, rfl, rfl⟩, Or.inr ⟨l, s, rfl, rfl, h3⟩⟩
    · right
      simp only [ZosditMap.build, h1]
      exact ⟨rfl, none, Or.inr ⟨pre, x, post, rfl, hb, rfl, Or.inl ⟨hv, rfl⟩⟩, Or.inl ⟨rfl, rfl⟩⟩
    · right
      simp only [ZosditMap.build, h1]
      exact ⟨rfl, none, Or.inr ⟨pre, x, post, rfl, hb, rfl, Or.inr ⟨hv, rfl⟩⟩, Or.inl ⟨rfl, rfl⟩⟩
  | serde input =>
    rcases buildsFrom_serde (value := Prod.snd) (C74_zosdit_outcome input picks) with ⟨m, l, h1, -, h2⟩ | ⟨h1, h2⟩
    · left
      rcases h2 with ⟨l', rfl, h3, h4, h5, -⟩ | ⟨_, _, _, _, _, _, h, _⟩ | ⟨_, _, _, _, _, h, _⟩
      · cases h5
        obtain ⟨m', s, -, -, h6, h7, h8⟩ := zosdit_from_iter (E := E) h3 h4 picks
        simp only [ZosditMap.build, h6]
        exact ⟨m', s, rfl, h7, some l, Or.inl ⟨l, rfl, h3, h4, rfl, rfl⟩, Or.inr ⟨l, s, rfl, rfl, h8⟩⟩
      · cases h
      · cases h
    · exact Or.inr ⟨h1, none, h2, Or.inl ⟨rfl, rfl⟩⟩

/-- `ZosditMap` is simulated by the reference machine -/
theorem zosdit_simulates : Prog.Simulates (ZosditMap.asContainer (K := K) (V := V) (I := I) (E := E)) zReference Represents where
  new := represents_new
  call := by
    rintro m s ⟨op, n⟩ h
    obtain ⟨s', h1, h2⟩ := Crash.zStep_refines h op n
    refine ⟨s', h1, h2, ?_⟩
    rintro rfl hu
    simp only [ZosditMap.asContainer] at hu
    have key := Crash.zStep_sat h op none
    revert key hu
    rcases Crash.zStep op m none with ⟨r, m', n'⟩
    rintro rfl ⟨-, h⟩
    exact h rfl
  build := zosdit_build_ok
  clone := by
    intro m s n h
    cases n with
    | none => exact Or.inl ⟨m, rfl, h⟩
    | some n =>
      simp only [ZosditMap.asContainer, ZosditMap.clone]
      split_ifs with hn
      · exact Or.inl ⟨_, rfl, h⟩
      · exact Or.inr ⟨rfl, by simp⟩

/-- **C99**, `ZosditMap`: as for maps, on states of the reference machine, whose sequence of entries is what `iter` gives and whose
numbers of entries and of removed values add up to what `len` gives. -/
theorem C99_zosdit_map_programs {ι : Type} [DecidableEq ι]
    (prog : List (Prog.Stmt ι (ZOp I K V × Option Nat) ((Nat → Nat) × Source (K × V) E))) :
    let r := Prog.execAll (ZosditMap.asContainer (K := K) (V := V) (I := I) (E := E)) (fun _ => ZosditMap.new) prog
    (∀ x, ZWF (r.1 x).iter) ∧ ∃ σ, Prog.SpecProg zReference (fun _ => ⟨[], 0, false⟩) prog σ r.2 ∧
      ∀ x, (σ x).entries = (r.1 x).iter ∧ (r.1 x).length = (σ x).entries.length + (σ x).removed := by
  intro r
  obtain ⟨σ', h1, h2⟩ := zosdit_simulates.execAll prog (st := fun _ => ZosditMap.new) (σ := fun _ : ι => (⟨[], 0, false⟩ : ZState K V))
    (fun _ => (zosdit_simulates (E := E)).new)
  exact ⟨fun x => zwf_iff.2 (h1 x).good.inv.flat, σ', h2, fun x => ⟨(h1 x).entries.symm, (h1 x).len⟩⟩
end

section
variable {ι I K D E : Type} [PointType I] [IntervalType I K] [LawfulPoint I] [LawfulInterval I K] [DecidableEq D] [DecidableEq ι]
open Gqdit

theorem gqStep_rep {g : Gqdit K D} {f : I → Option (Finset D)} (h : RepW g f) (op : GqOp I K D) (n : Option Nat) :
    ((Crash.gqStep op g n).1 = .ok () ∧ ¬ op.Bad ∧ RepW (Crash.gqStep op g n).2.1 (op.apply f)) ∨
    ((Crash.gqStep op g n).1 = .error (.crate .invalidInterval) ∧ op.Bad ∧ (Crash.gqStep op g n).2.1 = g) ∨
    ((Crash.gqStep op g n).1 = .error .user ∧ n ≠ none ∧ ∃ f', RepW (Crash.gqStep op g n).2.1 f' ∧
      ∀ p, f' p = none ∨ f' p = f p ∨ f' p = op.apply f p) := by
  obtain ⟨h', hf, hg, hr⟩ := Crash.prog_of_wf h.wf
  have hc : h'.contents = f := by
    funext p
    cases hp : f p with
    | some w => exact (hr.at_iff p w).1 ((h.at_iff p w).2 hp)
    | none =>
      cases hq : h'.contents p with
      | none => rfl
      | some w => rw [(h.at_iff p w).1 ((hr.at_iff p w).2 hq)] at hp; cases hp
  have happ : (h'.call op).contents = op.apply f := by
    funext p; rw [← hc]; cases op <;> rfl
  rcases gqStep_cases hf hg op n with ⟨h1, h2, h3⟩ | ⟨h1, h2, h3⟩ | ⟨h1, h2, h'', h3, h4, h5, -⟩
  · left
    have hb : ¬ op.Bad := fun hb => by rw [evalProg_call_bad hg hb] at h3; cases h3
    obtain ⟨g', e1, e2⟩ := evalProg_rep (h2 hb)
    rw [h3] at e1; cases e1
    exact ⟨h1, hb, happ ▸ e2⟩
  · exact Or.inr (Or.inl ⟨h1, h2, h3⟩)
  · obtain ⟨g', e1, e2⟩ := evalProg_rep h3
    rw [h4] at e1; cases e1
    exact Or.inr (Or.inr ⟨h1, h2, h''.contents, e2, fun p => by rw [← happ, ← hc]; exact h5 p⟩)

theorem gapsNo_rep {g : Gqdit K D} {f : I → Option (Finset D)} (h : RepW g f) {q : Interval I} (hq : Valid q) :
    ∃ l, g.gapsNoIdentifier q = .ok l ∧ Ascending l ∧ (∀ k ∈ l, Overlap k q) ∧ (∀ k ∈ l, ∀ p, Mem p k → f p = some ∅) ∧
      (∀ p, Mem p q → f p = some ∅ → ∃ k ∈ l, Mem p k) := by
  obtain ⟨h', hf, hg, hr⟩ := Crash.prog_of_wf h.wf
  have hc : ∀ p s, h'.contents p = some s ↔ f p = some s := fun p s => (hr.at_iff p s).symm.trans (h.at_iff p s)
  obtain ⟨g', l, e1, e2, e3, e4, e5, e6⟩ := C72_gaps_no_identifier hf hq
  rw [hg] at e1; cases e1
  exact ⟨l, e2, e3, fun k hk => ((e4 k).1 hk).2, fun k hk p hp => (hc p _).1 (e5 k hk p hp), fun p hp hs => e6 p hp ((hc p _).2 hs)⟩

theorem gq_exec {st : ι → Gqdit K D} {σ : ι → I → Option (Finset D)} (hR : ∀ x, RepW (st x) (σ x)) (s : Stmt ι I K D E) :
    ∃ σ', (∀ x, RepW ((exec st s).1 x) (σ' x)) ∧ GqSpecStmt σ s σ' (exec st s).2 := by
  have upd : ∀ {c f} (x : ι), RepW c f → ∀ z, RepW (Function.update st x c z) (Function.update σ x f z) := by
    intro c s x hc z
    by_cases hz : z = x
    · subst hz; simpa using hc
    · simpa [hz] using hR z
  obtain ⟨g0, hg0, hr0⟩ := evalProg_rep (h := (.new : GqProg I K D)) trivial
  have hg0 : (Gqdit.new : Res (Gqdit K D)) = .ok g0 := hg0
  have hr0 : RepW g0 (fun _ => some ∅) := hr0
  cases s with
  | new x => simp only [Gqdit.exec, hg0]; exact ⟨_, upd x hr0, .new σ x⟩
  | read x input =>
    rcases buildsFrom_serde (value := Prod.snd) (C74_gqdit_outcome input) with ⟨m, l, h1, ⟨h2, h3⟩, h4⟩ | ⟨h1, h2⟩
    · simp only [Gqdit.exec, h1]
      obtain ⟨h', -, -, hr⟩ := Crash.prog_of_wf (m := m.inner) h2
      refine ⟨_, upd x hr, .read h4 (fun p s => ?_)⟩
      rw [← hr.at_iff]
      constructor
      · rintro ⟨e, he, h5, h6⟩; exact ⟨e, h3.mem_iff.1 he, h5, h6⟩
      · rintro ⟨e, he, h5, h6⟩; exact ⟨e, h3.mem_iff.2 he, h5, h6⟩
    · simp only [Gqdit.exec, h1]
      exact ⟨σ, hR, .notRead h2⟩
  | clone x y n =>
    cases n with
    | none => exact ⟨_, upd x (hR y), .clone σ x y none⟩
    | some n =>
      simp only [Gqdit.exec, Gqdit.clone]
      split_ifs with hn
      · exact ⟨_, upd x (hR y), .clone σ x y (some n)⟩
      · exact ⟨σ, hR, .clonePanicked σ x y n⟩
  | take x y =>
    refine ⟨_, fun z => ?_, by simp only [Gqdit.exec, hg0]; exact .take σ x y⟩
    simp only [Gqdit.exec, hg0, Function.update_apply]
    split_ifs
    · exact hR y
    · exact hr0
    · exact hR z
  | swap x y =>
    refine ⟨_, fun z => ?_, .swap σ x y⟩
    simp only [Gqdit.exec, Function.update_apply]
    split_ifs
    · exact hR y
    · exact hR x
    · exact hR z
  | call x op n =>
    simp only [Gqdit.exec]
    rcases gqStep_rep (hR x) op n with ⟨h1, h2, h3⟩ | ⟨h1, h2, h3⟩ | ⟨h1, h2, f', h3, h4⟩
    · rw [h1]; exact ⟨_, upd x h3, .call h2⟩
    · rw [h1, h3]
      refine ⟨σ, fun z => ?_, .rejected h2⟩
      rw [Function.update_eq_self]; exact hR z
    · rw [h1]
      cases n with
      | none => exact absurd rfl h2
      | some n => exact ⟨_, upd x h3, .callPanicked h4⟩
  | append x y n =>
    simp only [Gqdit.exec]
    split_ifs with hxy
    · subst hxy; exact ⟨σ, hR, .appendSelf σ x n⟩
    · have key := Crash.append_sat (hR x) (hR y) n
      revert key
      rcases Crash.append (st x, st y) n with ⟨(e | u), ⟨s1, s2⟩, n'⟩
      · cases e with
        | crate p => exact fun h => h.elim
        | user =>
          rintro ⟨⟨c, c', h1, h2, h3, h4⟩, hn⟩
          cases n with
          | none => exact absurd rfl hn
          | some n =>
            refine ⟨_, fun z => ?_, .appendPanicked hxy h3 h4⟩
            simp only [Function.update_apply]
            split_ifs with e1 e2 e2
            · subst e1; exact absurd e2 (Ne.symm hxy)
            · exact h2
            · exact h1
            · exact hR z
      · rintro ⟨h1, -⟩
        obtain ⟨g', e1, e2⟩ := (hR x).append (hR y)
        rw [h1] at e1; cases e1
        refine ⟨_, fun z => ?_, .append hxy⟩
        simp only [Function.update_apply]
        split_ifs with e1 e3 e3
        · subst e1; exact absurd e3 (Ne.symm hxy)
        · exact repW_nil
        · exact e2
        · exact hR z
  | identifiersAtPoint x p =>
    simp only [Gqdit.exec, (hR x).identifiers p]
    exact ⟨σ, hR, .identifiersAtPoint σ x p⟩
  | gapsNoIdentifier x q =>
    by_cases hq : Valid q
    · obtain ⟨l, h1, h2, h3, h4, h5⟩ := gapsNo_rep (hR x) hq
      simp only [Gqdit.exec, h1]
      exact ⟨σ, hR, .gapsNo hq h2 h3 h4 h5⟩
    · have : (st x).gapsNoIdentifier q = .error .invalidInterval := by
        unfold Gqdit.gapsNoIdentifier; rw [invalidIntervalPanic_err (by rwa [valid_iff] at hq)]; rfl
      simp only [Gqdit.exec, this]
      exact ⟨σ, hR, .gapsNoRejected hq⟩
  | gapsWithIdentifier x d q =>
    by_cases hq : Valid q
    · obtain ⟨l, h1, h2, h3⟩ := (hR x).gapsWith d hq
      simp only [Gqdit.exec, h1]
      exact ⟨σ, hR, .gapsWith hq h2 h3⟩
    · have : (st x).gapsWithIdentifier d q = .error .invalidInterval := by
        unfold Gqdit.gapsWithIdentifier; rw [invalidIntervalPanic_err (by rwa [valid_iff] at hq)]; rfl
      simp only [Gqdit.exec, this]
      exact ⟨σ, hR, .gapsWithRejected hq⟩

theorem gq_execAll (ss : List (Stmt ι I K D E)) {st : ι → Gqdit K D} {σ : ι → I → Option (Finset D)} (hR : ∀ x, RepW (st x) (σ x)) :
    ∃ σ', (∀ x, RepW ((execAll st ss).1 x) (σ' x)) ∧ GqSpecProg σ ss σ' (execAll st ss).2 := by
  induction ss generalizing st σ with
  | nil => exact ⟨σ, hR, .nil σ⟩
  | cons s ss ih =>
    obtain ⟨σ', h1, h2⟩ := gq_exec hR s
    obtain ⟨σ'', h3, h4⟩ := ih h1
    exact ⟨σ'', h3, .cons h2 h4⟩

/-- **C99**, `Gqdit`: in every program with any number of `Gqdit`s - created, read from serialised data, cloned, moved, swapped, called,
and appended to each other, with any panic caught - the stored intervals of each are valid, ascending and disjoint, and every statement
does and returns what it would on plain maps from points to sets of identifiers, each variable holding its own. -/
theorem C99_gqdit_programs {g0 : Gqdit K D} (hg : Gqdit.new = .ok g0) (prog : List (Stmt ι I K D E)) :
    let r := execAll (fun _ => g0) prog
    (∀ x, WF (r.1 x).serialize.elems) ∧ ∃ σ, GqSpecProg (fun _ _ => some ∅) prog σ r.2 ∧
      ∀ x p, (∀ s, σ x p = some s ↔ ∃ e ∈ (r.1 x).serialize.elems, Mem p e.1 ∧ e.2 = s) ∧
        (r.1 x).identifiersAtPoint p = .ok ((σ x p).getD ∅) := by
  intro r
  obtain ⟨g, h1, h2⟩ := evalProg_rep (h := (.new : GqProg I K D)) trivial
  have h1 : (Gqdit.new : Res (Gqdit K D)) = .ok g := h1
  rw [hg] at h1; cases h1
  obtain ⟨σ, h3, h4⟩ := gq_execAll prog (st := fun _ => g0) (σ := fun _ _ => some ∅) (fun _ => h2)
  exact ⟨fun x => (h3 x).wf, σ, h4, fun x p => ⟨fun s => ((h3 x).at_iff p s).symm, (h3 x).identifiers p⟩⟩
end

/-! ## Copies -/
section
variable {ι I K V E : Type} [PointType I] [IntervalType I K] [LawfulPoint I] [LawfulInterval I K] [BEq V] [DecidableEq ι]

/-- **C99**: in every program, a clone of a map, the map read back from its serialised form, and the map built anew from its entries, in
whatever order they come, are one and the same: putting any of them in the variable makes no difference to anything that follows. -/
theorem C99_copies_identical (prog : List (Prog.Stmt ι (Op I K V × Option Nat) (Source (K × V) E))) (x y : ι) {l : List (K × V)} :
    let L := NoditMap.asContainer (K := K) (V := V) (I := I) (E := E)
    let r := Prog.execAll L (fun _ => NoditMap.new) prog
    l.Perm (r.1 x).iter →
    (Prog.exec L r.1 (.clone y x none)).1 = Function.update r.1 y (r.1 x) ∧
    (Prog.exec L r.1 (.build y (.serde (l.map .ok)))).1 = Function.update r.1 y (r.1 x) ∧
    (Prog.exec L r.1 (.build y (.iter l))).1 = Function.update r.1 y (r.1 x) ∧
    (Prog.exec L r.1 (.build y (.slice l))).1 = Function.update r.1 y (r.1 x) := by
  intro L r hl
  have hw : WF (r.1 x).iter := (C99_nodit_map_programs (E := E) prog).1 x
  have hv : ∀ e ∈ l, Valid e.1 := fun e he => hw.1 e (hl.mem_iff.1 he)
  have hd : l.Pairwise (fun a b => ¬ Overlap a.1 b.1) :=
    (hl.pairwise_iff (fun h ⟨p, h1, h2⟩ => h ⟨p, h2, h1⟩)).2 (hw.2.imp (fun hb ⟨p, h1, h2⟩ => lt_irrefl p (hb p p h1 h2)))
  obtain ⟨m, h1, h2, h3, h4, -⟩ := C17_from_iter_strict_disjoint hv hd
  have hm : m = r.1 x := NoditMap.ext_entries h3 hw (fun e => (h4 e).trans hl.mem_iff)
  subst hm
  have h5 := C74_any_order (E := E) hw (l := l) hl
  refine ⟨rfl, ?_, ?_, ?_⟩
  · simp only [L, Prog.exec, NoditMap.asContainer, NoditMap.build, h5]; rfl
  · simp only [L, Prog.exec, NoditMap.asContainer, NoditMap.build, h1]; rfl
  · simp only [L, Prog.exec, NoditMap.asContainer, NoditMap.build, h2]; rfl
end

/-! ## How often a clone runs user code -/
section
variable {ι I K V D E : Type} [PointType I] [IntervalType I K] [LawfulPoint I] [LawfulInterval I K] [BEq V] [DecidableEq ι] [DecidableEq D]

/-- **C99**: cloning a `NoditMap` runs `V::clone` exactly once per entry: it succeeds, giving the same map, if and only if as many runs
succeed; otherwise the panic comes out and no variable changes. -/
theorem C99_clone_runs (st : ι → NoditMap K V) (x y : ι) (n : Nat) :
    let L := NoditMap.asContainer (K := K) (V := V) (I := I) (E := E)
    ((st y).iter.length ≤ n → (Prog.exec L st (.clone x y (some n))) = (Function.update st x (st y), .done)) ∧
    (n < (st y).iter.length → (Prog.exec L st (.clone x y (some n))) = (st, .clonePanicked)) := by
  refine ⟨fun h => ?_, fun h => ?_⟩
  · simp only [NoditMap.iter] at h; simp only [Prog.exec, NoditMap.asContainer, NoditMap.clone]; rw [if_pos h]
  · simp only [Prog.exec, NoditMap.asContainer, NoditMap.clone]; rw [if_neg (by simpa [NoditMap.iter] using h)]

/-- **C99**: cloning a `ZosditMap` runs `V::clone` exactly once per stored value, whatever its counter says -/
theorem C99_zosdit_clone_runs (st : ι → ZosditMap K V) (x y : ι) (n : Nat) :
    let L := ZosditMap.asContainer (K := K) (V := V) (I := I) (E := E)
    ((st y).iter.length ≤ n → (Prog.exec L st (.clone x y (some n))) = (Function.update st x (st y), .done)) ∧
    (n < (st y).iter.length → (Prog.exec L st (.clone x y (some n))) = (st, .clonePanicked)) := by
  refine ⟨fun h => ?_, fun h => ?_⟩
  · simp only [Prog.exec, ZosditMap.asContainer, ZosditMap.clone]; rw [if_pos h]
  · simp only [Prog.exec, ZosditMap.asContainer, ZosditMap.clone]; rw [if_neg (by simpa using h)]

/-- **C99**: cloning a `Gqdit` runs `D::clone` exactly once for every identifier of every stored entry -/
theorem C99_gqdit_clone_runs (st : ι → Gqdit K D) (x y : ι) (n : Nat) :
    ((((st y).serialize.elems.map fun e => e.2.card).sum ≤ n) →
      Gqdit.exec st (.clone x y (some n) : Gqdit.Stmt ι I K D E) = (Function.update st x (st y), .done)) ∧
    (n < ((st y).serialize.elems.map fun e => e.2.card).sum →
      Gqdit.exec st (.clone x y (some n) : Gqdit.Stmt ι I K D E) = (st, .panicked .user)) := by
  refine ⟨fun h => ?_, fun h => ?_⟩
  · simp only [Gqdit.exec, Gqdit.clone]; rw [if_pos (show (List.map (fun e => e.2.card) (st y).inner.inner).sum ≤ n from h)]
  · simp only [Gqdit.exec, Gqdit.clone]; rw [if_neg (show ¬ (List.map (fun e => e.2.card) (st y).inner.inner).sum ≤ n from Nat.not_le.2 h)]
end

namespace Demo
/-- fill `0`, copy it to `1`, cut the copy (interrupted by user code the first time, which loses an entry of the copy), read a broken sequence into `2`, swap `0` and `2` -/
def mprog : List (Prog.Stmt (Fin 3) (Op U8 (Interval U8) Nat × Option Nat) (Source (Interval U8 × Nat) Unit)) :=
  [.call 0 (.insertStrict (iv 4 9) 1, none), .call 0 (.insertStrict (iv 20 30) 2, none), .clone 1 0 none, .clone 2 0 (some 1),
   .call 1 (.cut (iv 6 22), some 3), .call 1 (.cut (iv 6 22), none),
   .build 2 (.serde [.ok (iv 1 3, 1), .ok (iv 3 4, 2), .error ()]), .build 2 (.iter [(iv 1 3, 1)]), .swap 0 2]

example : let r := Prog.execAll (NoditMap.asContainer (I := U8) (E := Unit)) (fun _ => NoditMap.new) mprog
    (r.1 0).iter = [(iv 1 3, 1)] ∧ (r.1 2).iter = [(iv 4 9, 1), (iv 20 30, 2)] ∧ (r.1 1).iter = [(iv 23 30, 2)] := by decide

/-- a clone that fills up differently from the original, then `append`ed to it; the clone is empty and without place for anything -/
def gprog : List (Gqdit.Stmt (Fin 2) U8 (Interval U8) Nat Unit) :=
  [.call 0 (.insert {1} (iv 4 9)) none, .clone 1 0 none, .call 1 (.insert {2} (iv 6 12)) none, .append 0 1 none,
   .call 1 (.insert {7} (iv 0 255)) none, .identifiersAtPoint 0 (u8 8), .identifiersAtPoint 1 (u8 8)]

example : ∃ g0, Gqdit.new = .ok g0 ∧ ((Gqdit.execAll (fun _ => g0) gprog).1 0).serialize.elems =
      [(iv 0 3, ∅), (iv 4 5, {1}), (iv 6 9, {1, 2}), (iv 10 12, {2}), (iv 13 255, ∅)] ∧
    ((Gqdit.execAll (fun _ => g0) gprog).1 1).serialize.elems = [] := ⟨_, rfl, by decide, by decide⟩
end Demo
end Nodit
