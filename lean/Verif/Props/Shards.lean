import Verif.Props.Txn
import Verif.Props.Intervals
/-!
# C146: shards

A client spreads what would be one `NoditMap` over several: each shard has a territory, and gets of every write what `InclusiveInterval::intersection` leaves
of it in its territory. Territories may overlap (replicas). A point is read from the first shard whose territory has it.
-/
set_option linter.unusedSectionVars false
namespace Nodit.Shards
open Spec PointType InclusiveInterval NoditMap

variable {I K V : Type} [PointType I] [IntervalType I K] [LawfulPoint I] [LawfulInterval I K]

/-- writes. A client, models no lines of `/repo`. -/
inductive Write (K V : Type) where
  | set (k : K) (v : V)
  | unset (k : K)

/-- the interval of a write. A client, models no lines of `/repo`. -/
def Write.key : Write K V → K
  | .set k _ | .unset k => k

/-- the same write at another interval. A client, models no lines of `/repo`. -/
def Write.at : Write K V → K → Write K V
  | .set _ v, k => .set k v
  | .unset _, k => .unset k

/-- `insert_overwrite` or `cut`. A client, models no lines of `/repo`. -/
def apply (m : NoditMap K V) : Write K V → Res (NoditMap K V)
  | .set k v => do let (m, _) ← m.insertOverwrite (I := I) k v; pure m
  | .unset k => do let (m, _) ← m.cut (I := I) k; pure m

/-- one map, all writes in order. A client, models no lines of `/repo`. -/
def applyAll (m : NoditMap K V) : List (Write K V) → Res (NoditMap K V)
  | [] => pure m
  | w :: l => do
    let m ← apply (I := I) m w
    applyAll m l

/-- a territory and what is stored of it. A client, models no lines of `/repo`. -/
structure Shard (K V : Type) where
  territory : K
  map : NoditMap K V

/-- `for s in shards { if let Some(k) = s.territory.intersection(&w.key) { s.map.apply(w.at(k)) } }`. A client, models no lines of `/repo`. -/
def spread (w : Write K V) : List (Shard K V) → Res (List (Shard K V))
  | [] => pure []
  | s :: l => do
    let m ← match intersection (I := I) s.territory w.key with
      | some k => apply (I := I) s.map (w.at k)
      | none => pure s.map
    let l ← spread w l
    pure (⟨s.territory, m⟩ :: l)

/-- all writes in order. A client, models no lines of `/repo`. -/
def spreadAll (ss : List (Shard K V)) : List (Write K V) → Res (List (Shard K V))
  | [] => pure ss
  | w :: l => do
    let ss ← spread (I := I) w ss
    spreadAll ss l

/-- `shards.iter().find(|s| s.territory.contains_point(p))?.map.get_at_point(p)`. A client, models no lines of `/repo`. -/
def get (ss : List (Shard K V)) (p : I) : Res (Option V) :=
  match ss.find? fun s => containsPoint s.territory p with
  | some s => s.map.getAtPoint p
  | none => pure none

/-- empty shards with these territories. A client, models no lines of `/repo`. -/
def new (ts : List K) : List (Shard K V) := ts.map fun t => ⟨t, NoditMap.new⟩

open Classical in
/-- what a write makes of what is there -/
noncomputable def effect (w : Write K V) (f : I → Option V) : I → Option V :=
  fun p => if Mem p w.key then (match w with | .set _ v => some v | .unset _ => none) else f p

theorem apply_shows {m : NoditMap K V} {f : I → Option V} (h : Txn.Shows m f) (w : Write K V) (hw : Valid (I := I) w.key) :
    ∃ m', apply (I := I) m w = .ok m' ∧ Txn.Shows m' (effect w f) := by
  cases w with
  | set k v =>
    have hw : Valid (I := I) k := hw
    obtain ⟨m', out, h1, h2⟩ := Txn.shows_overwrite h hw v
    exact ⟨m', by simp only [apply, h1, bind, Except.bind, pure, Except.pure], h2⟩
  | unset k =>
    have hw : Valid (I := I) k := hw
    obtain ⟨m', out, h1, h2⟩ := Txn.shows_cut h hw
    exact ⟨m', by simp only [apply, h1, bind, Except.bind, pure, Except.pure], h2⟩

/-- each shard has what it should in its territory, and nothing outside -/
def Right (ss : List (Shard K V)) (f : I → Option V) : Prop :=
  ∀ s ∈ ss, Txn.Shows (I := I) s.map (open Classical in fun p => if Mem p s.territory then f p else none)

theorem spread_right (w : Write K V) (hw : Valid (I := I) w.key) {f : I → Option V} (ss : List (Shard K V)) (h : Right ss f) :
    ∃ ss', spread (I := I) w ss = .ok ss' ∧ Right ss' (effect w f) ∧ ss'.map Shard.territory = ss.map Shard.territory := by
  classical
  induction ss with
  | nil => exact ⟨[], rfl, by simp [Right], rfl⟩
  | cons s ss ih =>
    obtain ⟨ss', h1, h2, h3⟩ := ih fun t ht => h t (by simp [ht])
    have hs := h s (by simp)
    have hx := C24_intersection_exact (I := I) s.territory w.key
    cases hi : intersection (I := I) s.territory w.key with
    | none =>
      refine ⟨⟨s.territory, s.map⟩ :: ss', by simp only [spread, hi, h1, bind, Except.bind, pure, Except.pure], ?_, by simp [h3]⟩
      intro t ht
      rcases List.mem_cons.1 ht with rfl | ht
      · convert hs using 2 with p
        by_cases hp : Mem p s.territory
        · have : ¬ Mem p w.key := fun hq => hx.2.1 hi ⟨p, hp, hq⟩
          simp [effect, this]
        · simp [hp]
      · exact h2 t ht
    | some k =>
      obtain ⟨hv, hk⟩ := hx.1 k hi
      have hkey : (w.at k).key = k := by cases w <;> rfl
      obtain ⟨m', m1, m2⟩ := apply_shows hs (w.at k) (by rw [hkey]; exact hv)
      refine ⟨⟨s.territory, m'⟩ :: ss', by simp only [spread, hi, m1, h1, bind, Except.bind, pure, Except.pure], ?_, by simp [h3]⟩
      intro t ht
      rcases List.mem_cons.1 ht with rfl | ht
      · convert m2 using 2 with p
        simp only [effect, hkey, hk p]
        by_cases hp : Mem p s.territory <;> by_cases hq : Mem p w.key <;> simp [hp, hq]
        cases w <;> rfl
      · exact h2 t ht

theorem get_right {ss : List (Shard K V)} {f : I → Option V} (h : Right ss f) (p : I) :
    ((∃ t ∈ ss.map Shard.territory, Mem p t) → get ss p = .ok (f p)) ∧ ((¬ ∃ t ∈ ss.map Shard.territory, Mem p t) → get ss p = .ok none) := by
  classical
  have hc : ∀ k : K, containsPoint k p = true ↔ Mem p k := fun k => by simp [InclusiveInterval.containsPoint, Mem]
  unfold get
  cases hf : ss.find? (fun s => containsPoint s.territory p) with
  | none =>
    rw [List.find?_eq_none] at hf
    refine ⟨fun ⟨t, ht, hp⟩ => ?_, fun _ => rfl⟩
    obtain ⟨s, hs, rfl⟩ := List.mem_map.1 ht
    exact absurd ((hc _).2 hp) (hf s hs)
  | some s =>
    have hs := List.mem_of_find?_eq_some hf
    have hp := (hc s.territory).1 (by simpa using List.find?_some hf)
    refine ⟨fun _ => ?_, fun hn => absurd ⟨_, List.mem_map_of_mem hs, hp⟩ hn⟩
    simp only [(h s hs).2 p, hp, if_true]

/-- **C146**: for any territories, overlapping or not, and any valid writes, neither client panics, the shards give at every point of a territory what the
one map gives and nothing elsewhere, and no shard stores anything outside its territory. -/
theorem C146_shards (ts : List K) (ws : List (Write K V)) (hw : ∀ w ∈ ws, Valid (I := I) w.key) :
    ∃ m ss, applyAll (I := I) NoditMap.new ws = .ok m ∧ spreadAll (I := I) (new ts) ws = .ok ss ∧ ss.map Shard.territory = ts ∧
      (∀ p : I, (∃ t ∈ ts, Mem p t) → get ss p = m.getAtPoint p) ∧ (∀ p : I, (¬ ∃ t ∈ ts, Mem p t) → get ss p = .ok none) ∧
      ∀ s ∈ ss, ∀ e ∈ s.map.iter, ∀ p : I, Mem p e.1 → Mem p s.territory := by
  classical
  have key : ∀ (ws : List (Write K V)), (∀ w ∈ ws, Valid (I := I) w.key) → ∀ (m : NoditMap K V) (ss : List (Shard K V)) (f : I → Option V), Txn.Shows m f →
      Right ss f → ∃ m' ss' f', applyAll (I := I) m ws = .ok m' ∧ spreadAll (I := I) ss ws = .ok ss' ∧ Txn.Shows (I := I) m' f' ∧ Right ss' f' ∧
        ss'.map Shard.territory = ss.map Shard.territory := by
    intro ws
    induction ws with
    | nil => exact fun _ m ss f h1 h2 => ⟨m, ss, f, rfl, rfl, h1, h2, rfl⟩
    | cons w ws ih =>
      intro hw m ss f h1 h2
      obtain ⟨m1, a1, a2⟩ := apply_shows h1 w (hw w (by simp))
      obtain ⟨s1, b1, b2, b3⟩ := spread_right w (hw w (by simp)) ss h2
      obtain ⟨m2, s2, f2, c1, c2, c3, c4, c5⟩ := ih (fun x hx => hw x (by simp [hx])) m1 s1 _ a2 b2
      exact ⟨m2, s2, f2, by simp only [applyAll, a1, c1, bind, Except.bind], by simp only [spreadAll, b1, c2, bind, Except.bind], c3, c4, c5.trans b3⟩
  have hempty : Txn.Shows (I := I) (NoditMap.new : NoditMap K V) fun _ => none :=
    ⟨by simp [WF, NoditMap.new, NoditMap.iter], fun p => getAtPoint_none (by simp [WF, NoditMap.new, NoditMap.iter]) (by simp [NoditMap.new, NoditMap.iter])⟩
  obtain ⟨m, ss, f, h1, h2, h3, h4, h5⟩ := key ws hw NoditMap.new (new ts) (fun _ => none) hempty (by
    intro s hs
    obtain ⟨t, -, rfl⟩ := List.mem_map.1 hs
    simpa using hempty)
  have h5 : ss.map Shard.territory = ts := h5.trans (by simp [new, Function.comp_def])
  refine ⟨m, ss, h1, h2, h5, fun p hp => ?_, fun p hp => ?_, fun s hs e he p hp => ?_⟩
  · rw [(get_right h4 p).1 (by rwa [h5]), h3.2 p]
  · exact (get_right h4 p).2 (by rwa [h5])
  · by_contra hc
    have := (h4 s hs).2 p
    rw [getAtPoint_eq (h4 s hs).1 he hp] at this
    simp [hc] at this

end Nodit.Shards
