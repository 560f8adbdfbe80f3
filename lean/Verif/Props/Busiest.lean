import Verif.Props.AgreementGqdit
/-!
# C145: where most intervals overlap

A client gives each of its intervals a number of its own, inserts them all in a `Gqdit`, and finds how many of them overlap at most in one point, by
asking `identifiers_at_point` at the starts only.
-/
set_option linter.unusedSectionVars false
namespace Nodit.Busiest
open Spec PointType InclusiveInterval Gqdit

variable {I K : Type} [PointType I] [IntervalType I K] [LawfulPoint I] [LawfulInterval I K]

/-- `for (n, k) in ks.enumerate() { g.insert({n}, k); }`. A client, models no lines of `/repo`. -/
def insertAll (g : Gqdit K Nat) (n : Nat) : List K → Res (Gqdit K Nat)
  | [] => pure g
  | k :: ks => do
    let g ← g.insert (I := I) {n} k
    insertAll g (n + 1) ks

/-- `ks.map(|k| g.identifiers_at_point(k.start()).len()).max().unwrap_or(0)`. A client, models no lines of `/repo`. -/
def most (g : Gqdit K Nat) : List K → Res Nat
  | [] => pure 0
  | k :: ks => do
    let s ← g.identifiersAtPoint (start (I := I) k)
    let n ← most g ks
    pure (max s.card n)

/-- the whole client, models no lines of `/repo` -/
def busiest (ks : List K) : Res Nat := do
  let g ← insertAll (I := I) (← Gqdit.new (I := I)) 0 ks
  most (I := I) g ks

open Classical in
/-- how many of the intervals have the point -/
noncomputable def depth (ks : List K) (p : I) : Nat := ks.countP fun k => Mem p k

theorem insertAll_rep (ks : List K) (hk : ∀ k ∈ ks, Valid (I := I) k) {g : Gqdit K Nat} {f : I → Finset Nat} (h : Rep g f) {n : Nat}
    (hn : ∀ p, ∀ i ∈ f p, i < n) :
    ∃ g' f', insertAll (I := I) g n ks = .ok g' ∧ Rep (I := I) g' f' ∧ ∀ p, (f' p).card = (f p).card + depth ks p := by
  classical
  induction ks generalizing g f n with
  | nil => exact ⟨g, f, rfl, h, fun p => by simp [depth]⟩
  | cons k ks ih =>
    obtain ⟨g1, h1, h2⟩ := h.insert (hk k (by simp)) {n}
    obtain ⟨g2, f2, h3, h4, h5⟩ := ih (fun d hd => hk d (by simp [hd])) h2 (n := n + 1) (fun p i hi => by
      split_ifs at hi with hp
      · rcases Finset.mem_union.1 hi with hi | hi
        · have := hn p i hi; omega
        · rw [Finset.mem_singleton] at hi; omega
      · have := hn p i hi; omega)
    refine ⟨g2, f2, by simp only [insertAll, h1, h3, bind, Except.bind], h4, fun p => ?_⟩
    rw [h5 p]
    by_cases hp : Mem p k
    · have hd : n ∉ f p := fun hi => lt_irrefl n (hn p n hi)
      simp only [hp, if_true, depth, List.countP_cons]
      rw [Finset.card_union_of_disjoint (by simpa using hd)]
      simp; omega
    · simp [hp, depth]

theorem most_spec (ks : List K) {g : Gqdit K Nat} {f : I → Finset Nat} (h : Rep g f) :
    ∃ n, most (I := I) g ks = .ok n ∧ (∀ k ∈ ks, (f (start k)).card ≤ n) ∧ (n = 0 ∨ ∃ k ∈ ks, (f (start k)).card = n) := by
  induction ks with
  | nil => exact ⟨0, rfl, by simp, Or.inl rfl⟩
  | cons k ks ih =>
    obtain ⟨n, h1, h2, h3⟩ := ih
    refine ⟨max (f (start k)).card n, by simp only [most, h1, h.identifiers (start k), bind, Except.bind, pure, Except.pure], ?_, ?_⟩
    · intro d hd
      rcases List.mem_cons.1 hd with rfl | hd
      · exact le_max_left _ _
      · exact le_trans (h2 d hd) (le_max_right _ _)
    · rcases le_total (f (start k)).card n with hc | hc
      · rw [max_eq_right hc]
        rcases h3 with h3 | ⟨d, hd, h3⟩
        · exact Or.inl h3
        · exact Or.inr ⟨d, by simp [hd], h3⟩
      · rw [max_eq_left hc]; exact Or.inr ⟨k, by simp, rfl⟩

/-- The deepest point can be taken to be a start. -/
theorem depth_at_start (ks : List K) (p : I) : depth ks p = 0 ∨ ∃ k ∈ ks, depth ks p ≤ depth ks (start (I := I) k) := by
  classical
  by_cases h0 : depth ks p = 0
  · exact Or.inl h0
  refine Or.inr ?_
  -- the latest start among the intervals that have `p`
  have hne : (ks.filter fun k => decide (Mem p k)) ≠ [] := by
    intro hc
    rw [depth, List.countP_eq_length_filter, hc] at h0
    exact h0 rfl
  have hmax : ∃ k ∈ ks.filter (fun k => decide (Mem p k)), ∀ d ∈ ks.filter (fun k => decide (Mem p k)), start (I := I) d ≤ start k := by
    generalize ks.filter (fun k => decide (Mem p k)) = l at hne
    clear h0
    induction l with
    | nil => exact absurd rfl hne
    | cons a l ih =>
      by_cases hl : l = []
      · subst hl; exact ⟨a, by simp, by simp⟩
      · obtain ⟨k, hk, h⟩ := ih hl
        rcases le_total (start (I := I) a) (start k) with hc | hc
        · exact ⟨k, by simp [hk], by rintro d hd; rcases List.mem_cons.1 hd with rfl | hd; exacts [hc, h d hd]⟩
        · exact ⟨a, by simp, by rintro d hd; rcases List.mem_cons.1 hd with rfl | hd; exacts [le_refl _, le_trans (h d hd) hc]⟩
  obtain ⟨k, hk, h⟩ := hmax
  rw [List.mem_filter] at hk
  have hp : Mem p k := by simpa using hk.2
  refine ⟨k, hk.1, List.countP_mono_left fun d hd hd' => ?_⟩
  have hd' : Mem p d := by simpa using hd'
  have := h d (List.mem_filter.2 ⟨hd, by simpa using hd'⟩)
  exact decide_eq_true ⟨this, le_trans hp.1 hd'.2⟩

/-- **C145**: for all valid intervals, repetitions allowed, the client does not panic, what it returns is at least the number of intervals at any point,
and is the number of intervals at some point (if there is an interval at all; else it is zero). -/
theorem C145_busiest (ks : List K) (hk : ∀ k ∈ ks, Valid (I := I) k) :
    ∃ n, busiest (I := I) ks = .ok n ∧ (∀ p : I, depth ks p ≤ n) ∧ (ks = [] ∧ n = 0 ∨ ∃ p : I, depth ks p = n) := by
  classical
  obtain ⟨g, h1, h2⟩ := new_rep (I := I) (K := K) (D := Nat)
  obtain ⟨g', f', h3, h4, h5⟩ := insertAll_rep ks hk h2 (n := 0) (by simp)
  have h5 : ∀ p, (f' p).card = depth ks p := fun p => by simpa using h5 p
  obtain ⟨n, h6, h7, h8⟩ := most_spec (I := I) ks h4
  have hle : ∀ p : I, depth ks p ≤ n := fun p => by
    rcases depth_at_start ks p with h | ⟨k, hk, h⟩
    · omega
    · have := h7 k hk; rw [h5] at this; omega
  refine ⟨n, by simp only [busiest, h1, h3, h6, bind, Except.bind], hle, ?_⟩
  rcases h8 with rfl | ⟨k, -, h8⟩
  · cases ks with
    | nil => exact Or.inl ⟨rfl, rfl⟩
    | cons k ks => exact Or.inr ⟨start k, Nat.le_zero.1 (hle _)⟩
  · exact Or.inr ⟨start k, by rw [← h5]; exact h8⟩

end Nodit.Busiest
