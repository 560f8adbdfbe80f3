import Verif.Props.SetAlgebra
import Verif.Props.FirstCome
import Verif.Props.Algebra
import Verif.Props.Bounds
import Verif.Props.Parametric
import Verif.Props.Patch
/-!
# C138: painting back to front and front to back

A client has layers, each an interval with a value; a later one hides the earlier ones. It can paint them in this order with `insert_overwrite`, or in
the opposite order, filling only what is still free with `gaps_trimmed` and `insert_strict`.
-/
set_option linter.unusedSectionVars false
namespace Nodit.Painter
open Spec PointType InclusiveInterval NoditMap

variable {I K V W : Type} [PointType I] [IntervalType I K] [LawfulPoint I] [LawfulInterval I K]

/-- Back to front: `for (k, v) in layers { m.insert_overwrite(k, v); }`. A client, models no lines of `/repo`. -/
def paint (m : NoditMap K V) : List (K × V) → Res (NoditMap K V)
  | [] => pure m
  | e :: l => do
    let (m, _) ← m.insertOverwrite (I := I) e.1 e.2
    paint m l

/-- `for g in gaps { m.insert_strict(g, v).unwrap(); }`. A client, models no lines of `/repo`. -/
def insertAll (m : NoditMap K V) (v : V) : List K → Res (NoditMap K V)
  | [] => pure m
  | k :: l => do
    match ← m.insertStrict (I := I) k v with
    | (m, .ok ()) => insertAll m v l
    | (_, .error _) => .error .explicit

/-- Front to back: `for (k, v) in layers { for g in m.gaps_trimmed(k) (collected) { m.insert_strict(g, v).unwrap(); } }`. A client, models no lines of
`/repo`. -/
def fill (m : NoditMap K V) : List (K × V) → Res (NoditMap K V)
  | [] => pure m
  | e :: l => do
    let gaps ← m.gapsTrimmed (I := I) e.1
    let m ← insertAll (I := I) m e.2 gaps
    fill m l

/-- the frontmost layer at a point, if the layers are given front to back -/
noncomputable def top (l : List (K × V)) (p : I) : Option V :=
  open Classical in (l.find? fun e => Mem p e.1).map Prod.snd

theorem insertAll_eq (m : NoditMap K V) (v : V) (l : List K) {m' : NoditMap K V} (h : m.fromIterStrictFrom (I := I) (l.map fun k => (k, v)) = .ok (.ok m')) :
    insertAll (I := I) m v l = .ok m' := by
  induction l generalizing m with
  | nil => cases h; rfl
  | cons k l ih =>
    simp only [List.map_cons, NoditMap.fromIterStrictFrom, bind, Except.bind] at h
    simp only [insertAll, bind, Except.bind]
    cases hk : m.insertStrict (I := I) k v with
    | error e => rw [hk] at h; cases h
    | ok r =>
      obtain ⟨m1, r⟩ := r
      rw [hk] at h
      cases r with
      | error e => cases h
      | ok u => exact ih m1 h

theorem fill_step {m : NoditMap K V} (h : WF (I := I) m.iter) {k : K} (hk : Valid (I := I) k) (v : V) :
    ∃ gs m', m.gapsTrimmed (I := I) k = .ok gs ∧ insertAll (I := I) m v gs = .ok m' ∧ WF (I := I) m'.iter ∧
      (∀ e, e ∈ m'.iter ↔ e ∈ m.iter ∨ (e.2 = v ∧ e.1 ∈ gs)) := by
  obtain ⟨gs, h1, -⟩ := C15_gaps_trimmed h k hk
  obtain ⟨m', h2, h3, -⟩ := C59_fill_gaps h hk (Or.inl h1) (l := gs.map fun g => (g, v)) (by simp [Function.comp_def])
  refine ⟨gs, m', h1, insertAll_eq m v gs h2, wf_of_fromIterStrictFrom h h2, fun e => ?_⟩
  rw [h3 e, List.mem_map]
  refine or_congr_right ⟨?_, ?_⟩
  · rintro ⟨g, hg, rfl⟩; exact ⟨rfl, hg⟩
  · rintro ⟨rfl, hg⟩; exact ⟨e.1, hg, rfl⟩

/-- what a map without layers shows -/
theorem value_or {m : NoditMap K V} (h : WF (I := I) m.iter) (p : I) : ∃ o, m.getAtPoint p = .ok o := by
  obtain ⟨r, h1, -⟩ := spec_getAtPoint h p; exact ⟨r, h1⟩

theorem top_append (l l' : List (K × V)) (p : I) : top (l ++ l') p = (top l p).or (top l' p) := by
  simp only [top, List.find?_append, Option.map_or]

theorem top_cons (e : K × V) (l : List (K × V)) (p : I) : top (e :: l) p = open Classical in if Mem p e.1 then some e.2 else top l p := by
  classical
  simp only [top, List.find?_cons]
  by_cases hp : Mem p e.1 <;> simp [hp]

theorem paint_spec {m : NoditMap K V} (h : WF (I := I) m.iter) (l : List (K × V)) (hv : ∀ e ∈ l, Valid (I := I) e.1) :
    ∃ m', paint (I := I) m l = .ok m' ∧ WF (I := I) m'.iter ∧ ∀ (p : I) o, m.getAtPoint p = .ok o → m'.getAtPoint p = .ok ((top l.reverse p).or o) := by
  classical
  induction l generalizing m with
  | nil => exact ⟨m, rfl, h, fun p o ho => by simpa [top] using ho⟩
  | cons x l ih =>
    obtain ⟨mc, m1, out, -, h2, -, h4, -, h6⟩ := C09_insert_overwrite h x.1 (hv x (by simp)) x.2
    obtain ⟨m2, g1, g2, g3⟩ := ih h4 (fun f hf => hv f (by simp [hf]))
    refine ⟨m2, by simp only [paint, h2, g1, bind, Except.bind], g2, fun p o ho => ?_⟩
    rw [List.reverse_cons, top_append, top_cons]
    by_cases hp : Mem p x.1
    · rw [g3 p _ ((h6 p).1 hp)]; simp [hp]
    · rw [g3 p o (by rw [(h6 p).2 hp, ho])]; simp [hp, top]

theorem fill_spec {m : NoditMap K V} (h : WF (I := I) m.iter) (l : List (K × V)) (hv : ∀ e ∈ l, Valid (I := I) e.1) :
    ∃ m', fill (I := I) m l = .ok m' ∧ WF (I := I) m'.iter ∧ ∀ (p : I) o, m.getAtPoint p = .ok o → m'.getAtPoint p = .ok (o.or (top l p)) := by
  classical
  induction l generalizing m with
  | nil => exact ⟨m, rfl, h, fun p o ho => by simpa [top] using ho⟩
  | cons x l ih =>
    obtain ⟨gs, m1, h1, h2, h3, h4⟩ := fill_step h (hv x (by simp)) x.2
    obtain ⟨gs', c1, -, -, c3⟩ := C15_gaps_trimmed h x.1 (hv x (by simp))
    rw [h1] at c1; cases c1
    obtain ⟨m2, g1, g2, g3⟩ := ih h3 (fun f hf => hv f (by simp [hf]))
    refine ⟨m2, by simp only [fill, h1, h2, g1, bind, Except.bind], g2, fun p o ho => ?_⟩
    rw [top_cons]
    obtain ⟨r, r1, r2⟩ := spec_getAtPoint h p
    rw [ho] at r1; cases r1
    have hstep : m1.getAtPoint p = .ok (o.or (if Mem p x.1 then some x.2 else none)) := by
      obtain ⟨r', q1, q2⟩ := spec_getAtPoint h3 p
      rw [q1, Except.ok.injEq]
      cases o with
      | some v =>
        obtain ⟨e, he, hp, hev⟩ := (r2 v).1 rfl
        exact (q2 v).2 ⟨e, (h4 e).2 (Or.inl he), hp, hev⟩
      | none =>
        have hun : ¬ ∃ e ∈ m.iter, Mem p e.1 := fun ⟨e, he, hp⟩ => by cases (r2 e.2).2 ⟨e, he, hp, rfl⟩
        by_cases hp : Mem p x.1
        · obtain ⟨g, hg, hpg⟩ := (c3 p).2 ⟨hp, hun⟩
          simp only [hp, if_true, Option.none_or]
          exact (q2 x.2).2 ⟨(g, x.2), (h4 _).2 (Or.inr ⟨rfl, hg⟩), hpg, rfl⟩
        · simp only [hp, if_false, Option.none_or]
          cases r' with
          | none => rfl
          | some v =>
            obtain ⟨e, he, hpe, -⟩ := (q2 v).1 rfl
            rcases (h4 e).1 he with he | ⟨-, he⟩
            · exact absurd ⟨e, he, hpe⟩ hun
            · exact absurd ((c3 p).1 ⟨e.1, he, hpe⟩).1 hp
    rw [g3 p _ hstep, Option.or_assoc]
    by_cases hp : Mem p x.1 <;> simp [hp]

/-- two different gaps are separated -/
theorem gaps_separated {m : NoditMap K V} (h : WF (I := I) m.iter) {k : K} (hk : Valid (I := I) k) {gs : List K} (hg : m.gapsTrimmed (I := I) k = .ok gs)
    {a b : K} (ha : a ∈ gs) (hb : b ∈ gs) (hne : a ≠ b) : Separated (I := I) a b := by
  obtain ⟨gs', c1, c2, c3, c4⟩ := C15_gaps_trimmed h k hk
  rw [hg] at c1; cases c1
  have hva := c2.1 a ha
  have hvb := c2.1 b hb
  obtain ⟨i, rfl, g, hgm, hi⟩ := (c3 a).1 ha
  obtain ⟨j, rfl, g', hgm', hj⟩ := (c3 b).1 hb
  have same : ∀ p, Mem p g → Mem p g' → False := by
    intro p hp hp'
    obtain rfl := MaximalRun.unique hgm hgm' hp hp'
    exact hne (congrArg _ (interval_eq_of_mem_iff hi.1 fun x => (hi.2 x).trans (hj.2 x).symm))
  have next : ∀ {g g' : Interval I} {x y : I}, MaximalRun (fun p => ¬ ∃ e ∈ m.iter, Mem p e.1) g → MaximalRun (fun p => ¬ ∃ e ∈ m.iter, Mem p e.1) g' →
      Mem x g → Mem y g' → up x = some y → Mem y g := by
    intro g g' x y hg hg' hx hy hu
    obtain ⟨u1, u2⟩ := up_eq_some.1 hu
    refine hg.2.2 ⟨x, y⟩ (fun p hp => ?_) ⟨x, hx, le_refl _, u1.le⟩ y ⟨u1.le, le_refl _⟩
    rcases eq_or_lt_of_le hp.1 with he | hl
    · have : p = x := he.symm
      subst this; exact hg.2.1 _ hx
    · have : p = y := le_antisymm hp.2 (u2 p hl)
      subst this; exact hg'.2.1 _ hy
  have inA : ∀ p, Mem p (ofInterval i : K) → Mem p g := fun p hp => ((hi.2 p).1 (mem_ofInterval.1 hp)).1
  have inB : ∀ p, Mem p (ofInterval j : K) → Mem p g' := fun p hp => ((hj.2 p).1 (mem_ofInterval.1 hp)).1
  have hva' := valid_iff.1 hva
  have hvb' := valid_iff.1 hvb
  refine separated_of (fun ht => ?_) (fun ⟨p, hp, hp'⟩ => same p (inA p hp) (inB p hp'))
  rcases (touch_iff hva' hvb').1 ht with hu | hu
  · have h1 := inA _ ⟨hva', le_refl _⟩
    have h2 := inB _ ⟨le_refl _, hvb'⟩
    exact same _ (next hgm hgm' h1 h2 hu) h2
  · have h1 := inB _ ⟨hvb', le_refl _⟩
    have h2 := inA _ ⟨le_refl _, hva'⟩
    exact same _ h2 (next hgm' hgm h1 h2 hu)

theorem fresh_of {m : NoditMap K V} (h : WF (I := I) m.iter) {e : K × V} (he : e ∈ m.iter) : ∃ p : I, Mem p e.1 ∧ m.getAtPoint p = .ok (some e.2) := by
  obtain ⟨p, hp⟩ := h.1 e he
  exact ⟨p, hp, getAtPoint_eq h he hp⟩

theorem paint_coalesced {m m' : NoditMap K V} (h : WF (I := I) m.iter) (hc : Coalesced (I := I) m.iter) (l : List (K × V)) (hv : ∀ e ∈ l, Valid (I := I) e.1)
    (hd : (l.map Prod.snd).Nodup) (hf : ∀ (p : I) v, m.getAtPoint p = .ok (some v) → v ∉ l.map Prod.snd) (hp : paint (I := I) m l = .ok m') :
    Coalesced (I := I) m'.iter := by
  classical
  induction l generalizing m with
  | nil => cases hp; exact hc
  | cons x l ih =>
    obtain ⟨mc, m1, out, h1, h2, -, h4, h5, h6⟩ := C09_insert_overwrite h x.1 (hv x (by simp)) x.2
    simp only [paint, h2, bind, Except.bind] at hp
    have hcc := coalesced_cut h hc (hv x (by simp)) h1
    simp only [List.map_cons, List.nodup_cons] at hd
    have hx : ∀ e ∈ mc.iter, e = (x.1, x.2) ∨ e.2 ≠ x.2 := by
      intro e he
      by_cases heq : e = (x.1, x.2)
      · exact Or.inl heq
      · right
        have he' := (h5 e).2 (Or.inl he)
        obtain ⟨p, hp, hg⟩ := fresh_of h4 he'
        have hpx : ¬ Mem p x.1 := fun hpx => heq (Patch.wf_unique h4 he' ((h5 _).2 (Or.inr rfl)) ⟨p, hp, hpx⟩)
        rw [(h6 p).2 hpx] at hg
        intro hev
        exact hf p _ hg (by simp [hev])
    refine ih h4 ?_ (fun e he => hv e (by simp [he])) hd.2 ?_ hp
    · intro d hd' e he
      rcases (h5 d).1 hd' with hd' | rfl <;> rcases (h5 e).1 he with he | rfl
      · exact hcc d hd' e he
      · rcases hx d hd' with heq | hne
        · exact Or.inl heq
        · exact Or.inr (Or.inl hne)
      · rcases hx e he with heq | hne
        · exact Or.inl heq.symm
        · exact Or.inr (Or.inl hne.symm)
      · exact Or.inl rfl
    · intro p v hg hvl
      by_cases hpx : Mem p x.1
      · rw [(h6 p).1 hpx] at hg; cases hg; exact hd.1 hvl
      · rw [(h6 p).2 hpx] at hg; exact hf p v hg (List.mem_cons_of_mem _ hvl)

theorem fill_coalesced {m m' : NoditMap K V} (h : WF (I := I) m.iter) (hc : Coalesced (I := I) m.iter) (l : List (K × V)) (hv : ∀ e ∈ l, Valid (I := I) e.1)
    (hd : (l.map Prod.snd).Nodup) (hf : ∀ e ∈ m.iter, e.2 ∉ l.map Prod.snd) (hp : fill (I := I) m l = .ok m') :
    Coalesced (I := I) m'.iter := by
  classical
  induction l generalizing m with
  | nil => cases hp; exact hc
  | cons x l ih =>
    obtain ⟨gs, m1, h1, h2, h3, h4⟩ := fill_step h (hv x (by simp)) x.2
    simp only [fill, h1, h2, bind, Except.bind] at hp
    simp only [List.map_cons, List.nodup_cons] at hd
    refine ih h3 ?_ (fun e he => hv e (by simp [he])) hd.2 ?_ hp
    · intro d hd' e he
      rcases (h4 d).1 hd' with hd' | ⟨d2, hd'⟩ <;> rcases (h4 e).1 he with he | ⟨e2, he⟩
      · exact hc d hd' e he
      · exact Or.inr (Or.inl fun heq => hf d hd' (by simp [heq, e2]))
      · exact Or.inr (Or.inl fun heq => hf e he (by simp [← heq, d2]))
      · by_cases heq : d.1 = e.1
        · exact Or.inl (Prod.ext heq (d2.trans e2.symm))
        · exact Or.inr (Or.inr (gaps_separated h (hv x (by simp)) h1 hd' he heq))
    · intro e he hel
      rcases (h4 e).1 he with he | ⟨e2, -⟩
      · exact hf e he (List.mem_cons_of_mem _ hel)
      · rw [e2] at hel; exact hd.1 hel

theorem coalesced_ext {m m' : NoditMap (Interval I) V} (h : WF (I := I) m.iter) (h' : WF (I := I) m'.iter) (hc : Coalesced (I := I) m.iter)
    (hc' : Coalesced (I := I) m'.iter) (heq : ∀ p : I, m.getAtPoint p = m'.getAtPoint p) : m = m' := by
  have key : ∀ {m m' : NoditMap (Interval I) V}, WF (I := I) m.iter → WF (I := I) m'.iter → Coalesced (I := I) m.iter → Coalesced (I := I) m'.iter →
      (∀ p : I, m.getAtPoint p = m'.getAtPoint p) → ∀ e, e ∈ m.iter → e ∈ m'.iter := by
    intro m m' h h' hc hc' heq e he
    obtain ⟨p, hp, hg⟩ := fresh_of h he
    rw [heq p] at hg
    obtain ⟨r, e1, e2⟩ := spec_getAtPoint h' p
    rw [hg] at e1; cases e1
    obtain ⟨d, hd, hpd, hv⟩ := (e2 e.2).1 rfl
    have m1 := coalesced_maximal h hc he
    have m2 := coalesced_maximal h' hc' hd
    rw [hv] at m2
    simp only [heq] at m1
    have hk : e.1 = d.1 := MaximalRun.unique m1 m2 (p := p) hp hpd
    have : e = d := Prod.ext hk hv.symm
    rw [this]; exact hd
  exact NoditMap.ext_entries h h' fun e => ⟨key h h' hc hc' heq e, key h' h hc' hc (fun p => (heq p).symm) e⟩

theorem paint_map (ψ : V → W) (m : NoditMap K V) (l : List (K × V)) :
    paint (I := I) (m.mapEntries id ψ) (l.map (Prod.map id ψ)) = (paint (I := I) m l).map (NoditMap.mapEntries id ψ) := by
  induction l generalizing m with
  | nil => rfl
  | cons x l ih =>
    have := NoditMap.insertOverwrite_map (m := m) (ψ := ψ) (keeps_id (I := I) (K := K)) (fun _ _ => trivial) x.1 x.2
    simp only [List.map_cons, paint, Prod.map_fst, Prod.map_snd, id, bind, Except.bind] at this ⊢
    rw [this]
    cases m.insertOverwrite (I := I) x.1 x.2 with
    | error e => rfl
    | ok r => exact ih r.1

theorem insertAll_map (ψ : V → W) (m : NoditMap K V) (v : V) (l : List K) :
    insertAll (I := I) (m.mapEntries id ψ) (ψ v) l = (insertAll (I := I) m v l).map (NoditMap.mapEntries id ψ) := by
  induction l generalizing m with
  | nil => rfl
  | cons k l ih =>
    have := NoditMap.insertStrict_map (m := m) (ψ := ψ) (keeps_id (I := I) (K := K)) k v
    simp only [insertAll, id, bind, Except.bind] at this ⊢
    rw [this]
    cases m.insertStrict (I := I) k v with
    | error e => rfl
    | ok r =>
      obtain ⟨m1, r⟩ := r
      cases r with
      | error e => rfl
      | ok u => exact ih m1

theorem fill_map (ψ : V → W) (m : NoditMap K V) (l : List (K × V)) :
    fill (I := I) (m.mapEntries id ψ) (l.map (Prod.map id ψ)) = (fill (I := I) m l).map (NoditMap.mapEntries id ψ) := by
  induction l generalizing m with
  | nil => rfl
  | cons x l ih =>
    have := NoditMap.gapsTrimmed_map (m := m) (ψ := ψ) (keeps_id (I := I) (K := K)) (Or.inl fun _ => trivial) (fun i hi => absurd trivial hi) x.1
    simp only [List.map_cons, fill, Prod.map_fst, Prod.map_snd, id, bind, Except.bind] at this ⊢
    rw [this]
    cases m.gapsTrimmed (I := I) x.1 with
    | error e => rfl
    | ok gs =>
      simp only [Except.map, List.map_id_fun, id, insertAll_map]
      cases insertAll (I := I) m x.2 gs with
      | error e => rfl
      | ok m1 => exact ih m1

/-- each layer with its number -/
def numbered (l : List (K × V)) : List (K × (V × Nat)) := l.zipIdx.map fun x => (x.1.1, (x.1.2, x.2))

theorem numbered_map (l : List (K × V)) : (numbered l).map (Prod.map id Prod.fst) = l := by
  simp only [numbered, List.map_map]
  have : (Prod.map id Prod.fst ∘ fun x : (K × V) × Nat => (x.1.1, (x.1.2, x.2))) = Prod.fst := rfl
  rw [this, List.zipIdx_map_fst]

theorem numbered_nodup (l : List (K × V)) : ((numbered l).map Prod.snd).Nodup := by
  refine List.Nodup.of_map Prod.snd ?_
  simp only [numbered, List.map_map]
  have : (Prod.snd ∘ Prod.snd ∘ fun x : (K × V) × Nat => (x.1.1, (x.1.2, x.2))) = Prod.snd := rfl
  rw [this, List.zipIdx_map_snd]
  exact List.nodup_range'

theorem numbered_valid {l : List (K × V)} (hv : ∀ e ∈ l, Valid (I := I) e.1) : ∀ e ∈ numbered l, Valid (I := I) e.1 := by
  intro e he
  have : Prod.map id Prod.fst e ∈ l := by rw [← numbered_map l]; exact List.mem_map.2 ⟨e, he, rfl⟩
  exact hv _ this

theorem coalesced_new : Coalesced (I := I) (NoditMap.new : NoditMap K V).iter := by simp [Coalesced, NoditMap.new, NoditMap.iter]

theorem getAtPoint_new (p : I) : (NoditMap.new : NoditMap K V).getAtPoint p = .ok none := by
  obtain ⟨r, e1, e2⟩ := spec_getAtPoint (wf_new (K := K) (V := V) (I := I)) p
  rw [e1]
  cases r with
  | none => rfl
  | some v => obtain ⟨e, he, -⟩ := (e2 v).1 rfl; cases he

theorem same_of_nodup (l : List (Interval I × V)) (hv : ∀ e ∈ l, Valid (I := I) e.1) (hd : (l.map Prod.snd).Nodup) :
    ∃ m, paint (I := I) .new l = .ok m ∧ fill (I := I) .new l.reverse = .ok m ∧ WF (I := I) m.iter ∧ Coalesced (I := I) m.iter ∧
      ∀ p : I, m.getAtPoint p = .ok (top l.reverse p) := by
  have hv' : ∀ e ∈ l.reverse, Valid (I := I) e.1 := fun e he => hv e (List.mem_reverse.1 he)
  obtain ⟨m, a1, a2, a3⟩ := paint_spec wf_new l hv
  obtain ⟨m', b1, b2, b3⟩ := fill_spec wf_new l.reverse hv'
  have c1 := paint_coalesced wf_new coalesced_new l hv hd (fun p v hx => by rw [getAtPoint_new] at hx; cases hx) a1
  have c2 := fill_coalesced wf_new coalesced_new l.reverse hv' (by rw [List.map_reverse]; exact List.nodup_reverse.2 hd)
    (fun e he => by cases he) b1
  have g1 : ∀ p : I, m.getAtPoint p = .ok (top l.reverse p) := fun p => by rw [a3 p none (getAtPoint_new p), Option.or_none]
  have g2 : ∀ p : I, m'.getAtPoint p = .ok (top l.reverse p) := fun p => by rw [b3 p none (getAtPoint_new p), Option.none_or]
  obtain rfl := coalesced_ext a2 b2 c1 c2 (fun p => (g1 p).trans (g2 p).symm)
  exact ⟨m, a1, b1, a2, c1, g1⟩

/-- **C138**: the two ways of painting never panic and give the same map, entry by entry (also if different layers have equal values) -/
theorem C138_same (l : List (Interval I × V)) (hv : ∀ e ∈ l, Valid (I := I) e.1) :
    ∃ m, paint (I := I) .new l = .ok m ∧ fill (I := I) .new l.reverse = .ok m := by
  obtain ⟨m, h1, h2, -⟩ := same_of_nodup (numbered l) (numbered_valid hv) (numbered_nodup l)
  have e1 := paint_map (I := I) (Prod.fst : V × Nat → V) (.new : NoditMap (Interval I) (V × Nat)) (numbered l)
  have e2 := fill_map (I := I) (Prod.fst : V × Nat → V) (.new : NoditMap (Interval I) (V × Nat)) (numbered l).reverse
  rw [numbered_map, h1] at e1
  rw [List.map_reverse, numbered_map, h2] at e2
  exact ⟨_, e1, e2⟩

/-- **C138**: a point shows the value of the last layer that contains it, and nothing if there is none; this holds for every interval type and for
both ways of painting -/
theorem C138_visible (l : List (K × V)) (hv : ∀ e ∈ l, Valid (I := I) e.1) :
    ∃ m m', paint (I := I) .new l = .ok m ∧ fill (I := I) .new l.reverse = .ok m' ∧ ∀ p : I, m.getAtPoint p = m'.getAtPoint p ∧
      (m.getAtPoint p = .ok none ↔ ∀ e ∈ l, ¬ Mem p e.1) ∧
      ∀ v, m.getAtPoint p = .ok (some v) ↔ ∃ l1 k l2, l = l1 ++ (k, v) :: l2 ∧ Mem p k ∧ ∀ e ∈ l2, ¬ Mem p e.1 := by
  classical
  obtain ⟨m, a1, a2, a3⟩ := paint_spec wf_new l hv
  obtain ⟨m', b1, b2, b3⟩ := fill_spec wf_new l.reverse (fun e he => hv e (List.mem_reverse.1 he))
  refine ⟨m, m', a1, b1, fun p => ?_⟩
  have g1 : m.getAtPoint p = .ok (top l.reverse p) := by rw [a3 p none (getAtPoint_new p), Option.or_none]
  have g2 : m'.getAtPoint p = .ok (top l.reverse p) := by rw [b3 p none (getAtPoint_new p), Option.none_or]
  refine ⟨g1.trans g2.symm, ?_, fun v => ?_⟩
  · rw [g1, Except.ok.injEq]; simp [top]
  · rw [g1, Except.ok.injEq]
    constructor
    · intro h
      obtain ⟨e, he, rfl⟩ := Option.map_eq_some_iff.1 h
      obtain ⟨hp, as, bs, hl, hn⟩ := List.find?_eq_some_iff_append.1 he
      refine ⟨bs.reverse, e.1, as.reverse, ?_, by simpa using hp, fun d hd => ?_⟩
      · have := congrArg List.reverse hl
        simpa using this
      · simpa using hn d (List.mem_reverse.1 hd)
    · rintro ⟨l1, k, l2, rfl, hp, hn⟩
      refine Option.map_eq_some_iff.2 ⟨(k, v), List.find?_eq_some_iff_append.2 ⟨by simpa using hp, l2.reverse, l1.reverse, by simp, ?_⟩, rfl⟩
      intro d hd
      simpa using hn d (List.mem_reverse.1 hd)

/-- **C138**: the entries are exactly the maximal visible runs of the layers, each with the value of its layer -/
theorem C138_pieces (l : List (Interval I × V)) (hv : ∀ e ∈ l, Valid (I := I) e.1) {m : NoditMap (Interval I) V} (h : paint (I := I) .new l = .ok m)
    (i : Interval I) (v : V) :
    (i, v) ∈ m.iter ↔ ∃ l1 k l2, l = l1 ++ (k, v) :: l2 ∧ MaximalRun (fun p => Mem p k ∧ ∀ e ∈ l2, ¬ Mem p e.1) i := by
  classical
  obtain ⟨n, h1, h2, h3, h4, h5⟩ := same_of_nodup (numbered l) (numbered_valid hv) (numbered_nodup l)
  have e1 := paint_map (I := I) (Prod.fst : V × Nat → V) (.new : NoditMap (Interval I) (V × Nat)) (numbered l)
  rw [numbered_map, h1] at e1
  have hm : m = n.mapEntries id Prod.fst := by
    have : paint (I := I) .new l = .ok (n.mapEntries id Prod.fst) := e1
    rw [h] at this; exact Except.ok.inj this
  have hmem : (i, v) ∈ m.iter ↔ ∃ j, (i, (v, j)) ∈ n.iter := by
    rw [hm]
    constructor
    · intro hx
      obtain ⟨⟨a, b, j⟩, hy, he⟩ := List.mem_map.1 hx
      simp only [Prod.map_apply, id, Prod.mk.injEq] at he
      obtain ⟨rfl, rfl⟩ := he
      exact ⟨j, hy⟩
    · rintro ⟨j, hj⟩
      exact List.mem_map.2 ⟨_, hj, rfl⟩
  -- where a numbered value is visible
  have vis : ∀ l1 k w l2, numbered l = l1 ++ (k, w) :: l2 → ∀ p : I, n.getAtPoint p = .ok (some w) ↔ Mem p k ∧ ∀ e ∈ l2, ¬ Mem p e.1 := by
    intro l1 k w l2 hl p
    have hnd := numbered_nodup l
    rw [h5 p, Except.ok.injEq]
    rw [hl] at hnd ⊢
    have hw : ∀ e ∈ l2, e.2 ≠ w := by
      intro e he heq
      rw [List.map_append, List.map_cons] at hnd
      have := (List.nodup_cons.1 (List.nodup_append.1 hnd).2.1).1
      exact this (List.mem_map.2 ⟨e, he, heq⟩)
    have hw1 : ∀ e ∈ l1, e.2 ≠ w := by
      intro e he heq
      rw [List.map_append] at hnd
      exact (List.nodup_append.1 hnd).2.2 e.2 (List.mem_map.2 ⟨e, he, rfl⟩) w (by simp) heq
    rw [List.reverse_append, List.reverse_cons, List.append_assoc, top_append, List.singleton_append, top_cons]
    cases ht : top l2.reverse p with
    | some u =>
      obtain ⟨e, he, rfl⟩ := Option.map_eq_some_iff.1 ht
      have hep := List.find?_some he
      have hel := List.mem_reverse.1 (List.mem_of_find?_eq_some he)
      simp only [Option.some_or, Option.some.injEq]
      exact ⟨fun hx => absurd hx (hw e hel), fun hx => absurd (by simpa using hep) (hx.2 e hel)⟩
    | none =>
      have hnone : ∀ e ∈ l2, ¬ Mem p e.1 := by
        have := Option.map_eq_none_iff.1 ht
        intro e he
        simpa using List.find?_eq_none.1 this e (List.mem_reverse.2 he)
      simp only [Option.none_or]
      by_cases hp : Mem p k
      · simp only [hp, if_true, true_and, true_iff]; exact hnone
      · simp only [hp, if_false, false_and, iff_false]
        intro hx
        obtain ⟨e, he, hew⟩ := Option.map_eq_some_iff.1 hx
        exact hw1 e (List.mem_reverse.1 (List.mem_of_find?_eq_some he)) hew
  have keys : ∀ (l2' : List (Interval I × (V × Nat))) (p : I), (∀ e ∈ l2'.map (Prod.map id Prod.fst), ¬ Mem p e.1) ↔ ∀ e ∈ l2', ¬ Mem p e.1 := by
    intro l2' p
    simp only [List.mem_map]
    exact ⟨fun hx e he => hx _ ⟨e, he, rfl⟩, by rintro hx _ ⟨e, he, rfl⟩; exact hx e he⟩
  rw [hmem]
  constructor
  · rintro ⟨j, hj⟩
    have hrun := coalesced_maximal h3 h4 hj
    obtain ⟨p, hp, hg⟩ := fresh_of h3 hj
    rw [h5 p, Except.ok.injEq] at hg
    obtain ⟨e, he, hev⟩ := Option.map_eq_some_iff.1 hg
    obtain ⟨l1', l2', hl⟩ := List.append_of_mem (List.mem_reverse.1 (List.mem_of_find?_eq_some he))
    obtain ⟨k, w⟩ := e
    simp only at hev; subst hev
    refine ⟨l1'.map (Prod.map id Prod.fst), k, l2'.map (Prod.map id Prod.fst), ?_, ?_⟩
    · rw [← numbered_map l, hl]; simp
    · have hiff := vis l1' k (v, j) l2' hl
      simp only [keys]
      simp only [hiff] at hrun
      exact hrun
  · rintro ⟨l1, k, l2, hl, hrun⟩
    rw [← numbered_map l, List.map_eq_append_iff] at hl
    obtain ⟨l1', r, hl, rfl, hr⟩ := hl
    obtain ⟨⟨k', v', j⟩, l2', rfl, he, rfl⟩ := List.map_eq_cons_iff.1 hr
    simp only [Prod.map_apply, id, Prod.mk.injEq] at he
    obtain ⟨rfl, rfl⟩ := he
    have hiff := vis l1' k' (v', j) l2' hl
    simp only [keys] at hrun
    simp only [← hiff] at hrun
    obtain ⟨p, hp⟩ := hrun.1
    obtain ⟨r, r1, r2⟩ := spec_getAtPoint h3 p
    have hpv := hrun.2.1 p hp
    simp only [r1] at hpv; cases hpv
    obtain ⟨d, hd, hpd, hdv⟩ := (r2 (v', j)).1 rfl
    have hdrun := coalesced_maximal h3 h4 hd
    rw [hdv] at hdrun
    have := MaximalRun.unique hrun hdrun hp hpd
    refine ⟨j, ?_⟩
    have hk : i = d.1 := this
    rw [hk, ← hdv]; exact hd

/-- **C138**: `n` layers show at most `2n - 1` pieces -/
theorem C138_count (l : List (K × V)) (hv : ∀ e ∈ l, Valid (I := I) e.1) {m : NoditMap K V} (h : paint (I := I) .new l = .ok m) :
    m.len ≤ 2 * l.length - 1 := by
  classical
  have key : ∀ (l : List (K × V)) (m m' : NoditMap K V), WF (I := I) m.iter → (∀ e ∈ l, Valid (I := I) e.1) → paint (I := I) m l = .ok m' →
      m'.len ≤ m.len + 2 * l.length := by
    intro l
    induction l with
    | nil => intro m m' _ _ hp; cases hp; simp
    | cons x l ih =>
      intro m m' hw hv hp
      obtain ⟨mc, m1, out, -, h2, -, h4, -, -⟩ := C09_insert_overwrite hw x.1 (hv x (by simp)) x.2
      simp only [paint, h2, bind, Except.bind] at hp
      have hg := C81_call_growth hw (op := .insertOverwrite x.1 x.2) (m' := m1) (o := .entries out)
        (by simp only [NoditMap.step, h2, bind, Except.bind, pure, Except.pure])
      have := ih m1 m' h4 (fun e he => hv e (by simp [he])) hp
      simp only [growth] at hg
      simp only [List.length_cons]
      omega
  cases l with
  | nil => cases h; simp [NoditMap.new, NoditMap.len]
  | cons x l =>
    obtain ⟨mc, m1, out, -, h2, -, h4, h5, h6⟩ := C09_insert_overwrite (wf_new (K := K) (V := V)) x.1 (hv x (by simp)) x.2
    simp only [paint, h2, bind, Except.bind] at h
    have := key l m1 m h4 (fun e he => hv e (by simp [he])) h
    have hlen : m1.len ≤ 1 := by
      have hin : ∀ e ∈ m1.iter, e = (x.1, x.2) := by
        intro e he
        by_contra hne
        obtain ⟨p, hp, hg⟩ := fresh_of h4 he
        have hpx : ¬ Mem p x.1 := fun hpx => hne (Patch.wf_unique h4 he ((h5 _).2 (Or.inr rfl)) ⟨p, hp, hpx⟩)
        rw [(h6 p).2 hpx, getAtPoint_new] at hg
        cases hg
      have hnd : m1.iter.Nodup := by
        refine List.Pairwise.imp_of_mem ?_ h4.2
        intro a b ha hb hab heq
        obtain ⟨p, hp⟩ := h4.1 a ha
        exact lt_irrefl p (hab p p hp (heq ▸ hp))
      have : m1.iter ⊆ [(x.1, x.2)] := fun e he => by rw [hin e he]; simp
      exact (hnd.subperm this).length_le
    simp only [List.length_cons]
    omega

end Nodit.Painter
