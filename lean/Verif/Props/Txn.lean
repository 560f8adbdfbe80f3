import Verif.Props.Painter
/-!
# C144: nested transactions by overlays

A client gives a `NoditMap` transactions: what an open transaction writes goes to an overlay, a `NoditMap` whose values are `Option`s (`None` for what is
deleted). Reads go through the overlays to the map, a commit applies an overlay to what is below it, a rollback drops it. Transactions can be nested.
-/
set_option linter.unusedSectionVars false
namespace Nodit.Txn
open Spec PointType InclusiveInterval NoditMap

variable {I K V : Type} [PointType I] [IntervalType I K] [LawfulPoint I] [LawfulInterval I K]

/-- what the users of the store may do. A client, models no lines of `/repo`. -/
inductive Event (I K V : Type) where
  | begin
  | commit
  | rollback
  | set (k : K) (v : V)
  | unset (k : K)
  | get (p : I)

/-- The store: the map, and the overlays of the open transactions, innermost first. A client, models no lines of `/repo`. -/
structure Store (K V : Type) where
  base : NoditMap K V
  layers : List (NoditMap K (Option V))

/-- `for (k, v) in overlay { match v { Some(v) => m.insert_overwrite(k, v), None => m.cut(k) }; }`. A client, models no lines of `/repo`. -/
def applyTo (m : NoditMap K V) : List (K × Option V) → Res (NoditMap K V)
  | [] => pure m
  | (k, some v) :: l => do
    let (m, _) ← m.insertOverwrite (I := I) k v
    applyTo m l
  | (k, none) :: l => do
    let (m, _) ← m.cut (I := I) k
    applyTo m l

/-- the first overlay that has an entry at the point decides, else the map does. A client, models no lines of `/repo`. -/
def lookup (base : NoditMap K V) (p : I) : List (NoditMap K (Option V)) → Res (Option V)
  | [] => base.getAtPoint p
  | o :: ls => do
    match ← o.getAtPoint p with
    | some v => pure v
    | none => lookup base p ls

/-- One event, and what is read. A commit applies the innermost overlay to the next one, with `insert_overwrite` (`Painter.paint`), or to the map.
A client, models no lines of `/repo`. -/
def Store.step (s : Store K V) : Event I K V → Res (Store K V × Option (Option V))
  | .begin => pure ({ s with layers := NoditMap.new :: s.layers }, none)
  | .commit => match s.layers with
    | [] => pure (s, none)
    | [o] => do
      let b ← applyTo (I := I) s.base o.iter
      pure (⟨b, []⟩, none)
    | o :: o' :: ls => do
      let o'' ← Painter.paint (I := I) o' o.iter
      pure (⟨s.base, o'' :: ls⟩, none)
  | .rollback => pure ({ s with layers := s.layers.tail }, none)
  | .set k v => match s.layers with
    | [] => do
      let (b, _) ← s.base.insertOverwrite (I := I) k v
      pure (⟨b, []⟩, none)
    | o :: ls => do
      let (o, _) ← o.insertOverwrite (I := I) k (some v)
      pure (⟨s.base, o :: ls⟩, none)
  | .unset k => match s.layers with
    | [] => do
      let (b, _) ← s.base.cut (I := I) k
      pure (⟨b, []⟩, none)
    | o :: ls => do
      let (o, _) ← o.insertOverwrite (I := I) k none
      pure (⟨s.base, o :: ls⟩, none)
  | .get p => do
    let v ← lookup s.base p s.layers
    pure (s, some v)

/-- any number of events, and what the reads give. A client, models no lines of `/repo`. -/
def Store.run (s : Store K V) : List (Event I K V) → Res (Store K V × List (Option V))
  | [] => pure (s, [])
  | e :: l => do
    let (s, o) ← s.step e
    let (s, os) ← s.run l
    pure (s, o.toList ++ os)

/-- The specification: what the store has at each point now, and what it had when the open transactions began (a full copy for each). -/
structure State (I V : Type) where
  now : I → Option V
  saved : List (I → Option V)

/-- The specification of an event: begin saves a copy, commit forgets the last saved copy, rollback goes back to it. -/
noncomputable def State.step (s : State I V) : Event I K V → State I V × Option (Option V)
  | .begin => (⟨s.now, s.now :: s.saved⟩, none)
  | .commit => (⟨s.now, s.saved.tail⟩, none)
  | .rollback => (⟨s.saved.headD s.now, s.saved.tail⟩, none)
  | .set k v => open Classical in (⟨fun p => if Mem p k then some v else s.now p, s.saved⟩, none)
  | .unset k => open Classical in (⟨fun p => if Mem p k then none else s.now p, s.saved⟩, none)
  | .get p => (s, some (s.now p))

/-- the specification of any number of events -/
noncomputable def State.run (s : State I V) : List (Event I K V) → State I V × List (Option V)
  | [] => (s, [])
  | e :: l =>
    let r := s.step e
    let r' := State.run r.1 l
    (r'.1, r.2.toList ++ r'.2)

/-- the event's interval, if it has one, is valid -/
def Fine : Event I K V → Prop
  | .set k _ | .unset k => Valid k
  | _ => True

/-- the map is well formed and has exactly this at each point -/
def Shows {W : Type} (m : NoditMap K W) (f : I → Option W) : Prop := WF (I := I) m.iter ∧ ∀ p, m.getAtPoint p = .ok (f p)

/-- the store stands for the state -/
inductive Stands : NoditMap K V → List (NoditMap K (Option V)) → (I → Option V) → List (I → Option V) → Prop
  | base {b f} : Shows b f → Stands b [] f []
  | layer {b ls f fs o g f'} : Stands b ls f fs → Shows (I := I) o g → (∀ p, f' p = (g p).getD (f p)) → Stands b (o :: ls) f' (f :: fs)

theorem shows_overwrite {W : Type} {m : NoditMap K W} {f : I → Option W} (h : Shows m f) {k : K} (hk : Valid (I := I) k) (v : W) :
    ∃ m' out, m.insertOverwrite (I := I) k v = .ok (m', out) ∧ Shows m' (open Classical in fun p => if Mem p k then some v else f p) := by
  obtain ⟨-, m', out, -, h1, -, h2, -, h3⟩ := C09_insert_overwrite h.1 k hk v
  refine ⟨m', out, h1, h2, fun p => ?_⟩
  by_cases hp : Mem p k
  · rw [(h3 p).1 hp]; simp [hp]
  · rw [(h3 p).2 hp, h.2 p]; simp [hp]

theorem shows_cut {W : Type} {m : NoditMap K W} {f : I → Option W} (h : Shows m f) {k : K} (hk : Valid (I := I) k) :
    ∃ m' out, m.cut (I := I) k = .ok (m', out) ∧ Shows m' (open Classical in fun p => if Mem p k then none else f p) := by
  obtain ⟨m', out, h1, h2, -⟩ := C08_cut_exact h.1 k hk
  refine ⟨m', out, h1, h2, fun p => ?_⟩
  obtain ⟨h3, h4, -⟩ := C08_cut_pointwise h.1 k hk h1 p
  by_cases hp : Mem p k
  · rw [h3 hp]; simp [hp]
  · rw [h4 hp, h.2 p]; simp [hp]

/-- the last entry of a list that has the point -/
noncomputable def last {W : Type} (l : List (K × W)) (p : I) : Option W := Painter.top l.reverse p

theorem last_eq {W : Type} {m : NoditMap K W} {g : I → Option W} (h : Shows m g) (p : I) : last m.iter p = g p := by
  classical
  have h1 := h.2 p
  unfold last Painter.top
  cases hf : m.iter.reverse.find? (fun e => decide (Mem p e.1)) with
  | none =>
    rw [List.find?_eq_none] at hf
    have := getAtPoint_none h.1 (p := p) fun e he hp => by simpa [hp] using hf e (List.mem_reverse.2 he)
    rw [this] at h1; rw [← Except.ok.inj h1]; rfl
  | some e =>
    have he := List.mem_reverse.1 (List.mem_of_find?_eq_some hf)
    have hp : Mem p e.1 := by simpa using List.find?_some hf
    rw [getAtPoint_eq h.1 he hp] at h1; rw [← Except.ok.inj h1]; rfl

theorem last_cons {W : Type} (e : K × W) (l : List (K × W)) (p : I) :
    last (e :: l) p = (last l p).or (open Classical in if Mem p e.1 then some e.2 else none) := by
  classical
  rw [last, List.reverse_cons, Painter.top_append, Painter.top_cons]
  simp [last, Painter.top]

theorem shows_apply (l : List (K × Option V)) (hv : ∀ e ∈ l, Valid (I := I) e.1) {m : NoditMap K V} {f : I → Option V} (h : Shows m f) :
    ∃ m', applyTo (I := I) m l = .ok m' ∧ Shows m' fun p => (last l p).getD (f p) := by
  classical
  induction l generalizing m f with
  | nil => exact ⟨m, rfl, by simpa [last, Painter.top] using h⟩
  | cons e l ih =>
    obtain ⟨k, w⟩ := e
    have hk : Valid (I := I) k := hv (k, w) (by simp)
    have hl := fun d hd => hv d (List.mem_cons_of_mem _ hd)
    cases w with
    | none =>
      obtain ⟨m1, out, h1, h2⟩ := shows_cut h hk
      obtain ⟨m2, h3, h4⟩ := ih hl h2
      refine ⟨m2, by simp only [applyTo, h1, h3, bind, Except.bind], ?_⟩
      convert h4 using 2 with p
      rw [last_cons]
      by_cases hp : Mem p k <;> cases last l p <;> simp [hp]
    | some v =>
      obtain ⟨m1, out, h1, h2⟩ := shows_overwrite h hk v
      obtain ⟨m2, h3, h4⟩ := ih hl h2
      refine ⟨m2, by simp only [applyTo, h1, h3, bind, Except.bind], ?_⟩
      convert h4 using 2 with p
      rw [last_cons]
      by_cases hp : Mem p k <;> cases last l p <;> simp [hp]

theorem lookup_eq {b : NoditMap K V} {ls : List (NoditMap K (Option V))} {f : I → Option V} {fs : List (I → Option V)} (h : Stands b ls f fs) (p : I) :
    lookup b p ls = .ok (f p) := by
  induction h with
  | base h => exact h.2 p
  | layer _ h1 h2 ih =>
    rename_i g f' _
    simp only [lookup, h1.2 p, bind, Except.bind, h2 p]
    cases g p with
    | none => exact ih
    | some v => rfl

theorem step_stands {b : NoditMap K V} {ls : List (NoditMap K (Option V))} {f : I → Option V} {fs : List (I → Option V)} (h : Stands b ls f fs)
    (e : Event I K V) (he : Fine e) :
    ∃ b' ls', Store.step ⟨b, ls⟩ e = .ok (⟨b', ls'⟩, (State.step ⟨f, fs⟩ e).2) ∧
      Stands b' ls' (State.step ⟨f, fs⟩ e).1.now (State.step ⟨f, fs⟩ e).1.saved := by
  classical
  cases e with
  | «begin» =>
    exact ⟨b, NoditMap.new :: ls, rfl, .layer (g := fun _ => none) h
      ⟨by simp [WF, NoditMap.new, NoditMap.iter], fun p => getAtPoint_none (by simp [WF, NoditMap.new, NoditMap.iter]) (by simp [NoditMap.new, NoditMap.iter])⟩
      fun p => rfl⟩
  | rollback =>
    cases h with
    | base h => exact ⟨b, [], rfl, .base h⟩
    | layer h _ _ => exact ⟨b, _, rfl, h⟩
  | get p => exact ⟨b, ls, by simp only [Store.step, lookup_eq h p, bind, Except.bind, pure, Except.pure, State.step], h⟩
  | commit =>
    cases h with
    | base h => exact ⟨b, [], rfl, .base h⟩
    | layer h ho hf =>
      rename_i ls f1 fs o g
      cases h with
      | base hb =>
        obtain ⟨b', h1, h2⟩ := shows_apply o.iter ho.1.1 hb
        refine ⟨b', [], by simp only [Store.step, h1, bind, Except.bind, pure, Except.pure, State.step], .base ?_⟩
        convert h2 using 2 with p
        show f p = _
        rw [last_eq ho p, hf p]
      | layer h' ho' hf' =>
        rename_i ls f2 fs o' g'
        obtain ⟨o2, h1, h2, h3⟩ := Painter.paint_spec ho'.1 o.iter ho.1.1
        refine ⟨b, o2 :: ls, by simp only [Store.step, h1, bind, Except.bind, pure, Except.pure, State.step],
          .layer (g := fun p => (g p).or (g' p)) h' ⟨h2, fun p => ?_⟩ fun p => ?_⟩
        · rw [h3 p _ (ho'.2 p)]; simp only [← last_eq ho p]; rfl
        · show f p = _
          rw [hf p, hf' p]; cases g p <;> rfl
  | set k v =>
    cases h with
    | base hb =>
      obtain ⟨b', out, h1, h2⟩ := shows_overwrite hb he v
      exact ⟨b', [], by simp only [Store.step, h1, bind, Except.bind, pure, Except.pure, State.step], .base h2⟩
    | layer h ho hf =>
      obtain ⟨o', out, h1, h2⟩ := shows_overwrite ho he (some v)
      refine ⟨b, _, by simp only [Store.step, h1, bind, Except.bind, pure, Except.pure, State.step], .layer h h2 fun p => ?_⟩
      by_cases hp : Mem p k <;> simp [State.step, hp, hf p]
  | unset k =>
    cases h with
    | base hb =>
      obtain ⟨b', out, h1, h2⟩ := shows_cut hb he
      exact ⟨b', [], by simp only [Store.step, h1, bind, Except.bind, pure, Except.pure, State.step], .base h2⟩
    | layer h ho hf =>
      obtain ⟨o', out, h1, h2⟩ := shows_overwrite ho he none
      refine ⟨b, _, by simp only [Store.step, h1, bind, Except.bind, pure, Except.pure, State.step], .layer h h2 fun p => ?_⟩
      by_cases hp : Mem p k <;> simp [State.step, hp, hf p]

theorem run_stands (l : List (Event I K V)) (hl : ∀ e ∈ l, Fine e) {b : NoditMap K V} {ls : List (NoditMap K (Option V))} {f : I → Option V}
    {fs : List (I → Option V)} (h : Stands b ls f fs) :
    ∃ b' ls', Store.run ⟨b, ls⟩ l = .ok (⟨b', ls'⟩, (State.run ⟨f, fs⟩ l).2) ∧ Stands b' ls' (State.run ⟨f, fs⟩ l).1.now (State.run ⟨f, fs⟩ l).1.saved := by
  induction l generalizing b ls f fs with
  | nil => exact ⟨b, ls, rfl, h⟩
  | cons e l ih =>
    obtain ⟨b1, ls1, h1, h2⟩ := step_stands h e (hl e (by simp))
    obtain ⟨b2, ls2, h3, h4⟩ := ih (fun d hd => hl d (by simp [hd])) h2
    refine ⟨b2, ls2, ?_, h4⟩
    simp only [Store.run, h1, h3, bind, Except.bind, pure, Except.pure, State.run]

/-- **C144**: for any sequence of events with valid intervals on a store with any map and no open transaction, nothing panics, every read gives what it
gives if each transaction worked on a full copy and rollback went back to it, as many overlays are left as transactions are open, and if none is, the map
has this at every point. -/
theorem C144_transactions {m : NoditMap K V} (h : WF (I := I) m.iter) {f : I → Option V} (hf : ∀ p, m.getAtPoint p = .ok (f p))
    (l : List (Event I K V)) (hl : ∀ e ∈ l, Fine e) :
    ∃ s, Store.run ⟨m, []⟩ l = .ok (s, (State.run ⟨f, []⟩ l).2) ∧ WF (I := I) s.base.iter ∧ s.layers.length = (State.run ⟨f, []⟩ l).1.saved.length ∧
      (s.layers = [] → ∀ p, s.base.getAtPoint p = .ok ((State.run ⟨f, []⟩ l).1.now p)) := by
  obtain ⟨b, ls, h1, h2⟩ := run_stands l hl (Stands.base ⟨h, hf⟩)
  refine ⟨⟨b, ls⟩, h1, ?_⟩
  generalize (State.run ⟨f, []⟩ l).1.now = g at h2
  generalize (State.run ⟨f, []⟩ l).1.saved = gs at h2
  clear h1
  have hlen : WF (I := I) b.iter ∧ ls.length = gs.length := by
    induction h2 with
    | base h => exact ⟨h.1, rfl⟩
    | layer _ _ _ ih => exact ⟨ih.1, by simp [ih.2]⟩
  refine ⟨hlen.1, hlen.2, fun he p => ?_⟩
  cases h2 with
  | base h => exact h.2 p
  | layer => cases he

/-- With `n` transactions open, no event ends one that is not open, and at the end none is left open. -/
def Balanced : Nat → List (Event I K V) → Prop
  | n, [] => n = 0
  | n, .begin :: l => Balanced (n + 1) l
  | n, .commit :: l | n, .rollback :: l => ∃ m, n = m + 1 ∧ Balanced m l
  | n, .set _ _ :: l | n, .unset _ :: l | n, .get _ :: l => Balanced n l

theorem run_balanced (l : List (Event I K V)) {n : Nat} (hb : Balanced n l) {b : NoditMap K V} {us : List (NoditMap K (Option V))} (hn : us.length = n + 1)
    (ls : List (NoditMap K (Option V))) {s : Store K V} {os : List (Option V)} (h : Store.run ⟨b, us ++ ls⟩ l = .ok (s, os)) :
    ∃ o, s = ⟨b, o :: ls⟩ := by
  induction l generalizing n us os with
  | nil =>
    cases h
    have hb : n = 0 := hb
    subst hb
    obtain ⟨o, rfl⟩ := List.length_eq_one_iff.1 hn
    exact ⟨o, rfl⟩
  | cons e l ih =>
    simp only [Store.run, bind, Except.bind, pure, Except.pure] at h
    obtain ⟨u, us, rfl⟩ := List.exists_cons_of_length_eq_add_one hn
    split at h
    · cases h
    rename_i r hr
    obtain ⟨s1, o1⟩ := r
    simp only at h
    split at h
    · cases h
    rename_i r2 hr2
    obtain ⟨s2, os2⟩ := r2
    cases h
    have key : ∀ (vs : List (NoditMap K (Option V))) (k : Nat), s1 = ⟨b, vs ++ ls⟩ → vs.length = k + 1 → Balanced k l → ∃ o, s2 = ⟨b, o :: ls⟩ :=
      fun vs k h1 h2 h3 => ih h3 h2 (by rw [← h1]; exact hr2)
    cases e with
    | «begin» => cases hr; exact key (NoditMap.new :: u :: us) (n + 1) rfl (by simpa using hn) hb
    | get p =>
      simp only [Store.step, bind, Except.bind, pure, Except.pure] at hr
      split at hr <;> cases hr
      exact key (u :: us) n rfl hn hb
    | set k v =>
      simp only [Store.step, List.cons_append, bind, Except.bind, pure, Except.pure] at hr
      split at hr <;> cases hr
      exact key (_ :: us) n rfl (by simpa using hn) hb
    | unset k =>
      simp only [Store.step, List.cons_append, bind, Except.bind, pure, Except.pure] at hr
      split at hr <;> cases hr
      exact key (_ :: us) n rfl (by simpa using hn) hb
    | rollback =>
      obtain ⟨m, rfl, hb⟩ := hb
      cases hr
      exact key us m rfl (by simpa using hn) hb
    | commit =>
      obtain ⟨m, rfl, hb⟩ := hb
      obtain ⟨u', us, rfl⟩ := List.exists_cons_of_length_eq_add_one (by simpa using hn : us.length = m + 1)
      simp only [Store.step, List.cons_append, bind, Except.bind, pure, Except.pure] at hr
      split at hr <;> cases hr
      exact key (_ :: us) m rfl (by simpa using hn) hb

theorem run_append (s : Store K V) (l l' : List (Event I K V)) : s.run (l ++ l') = (do
    let (s, os) ← s.run l
    let (s, os') ← s.run l'
    pure (s, os ++ os')) := by
  induction l generalizing s with
  | nil => simp only [List.nil_append, Store.run, bind, Except.bind, pure, Except.pure]; cases s.run l' <;> rfl
  | cons e l ih =>
    simp only [List.cons_append, Store.run, bind, Except.bind, pure, Except.pure]
    cases s.step e with
    | error x => rfl
    | ok r =>
      simp only [ih, bind, Except.bind, pure, Except.pure]
      cases r.1.run l with
      | error x => rfl
      | ok r2 =>
        simp only
        cases r2.1.run l' with
        | error x => rfl
        | ok r3 => simp

/-- **C144**: whatever balanced sequence of events is between a begin and its rollback, afterwards the store is what it was, entry for entry. -/
theorem C144_rollback (s : Store K V) (l : List (Event I K V)) (hb : Balanced 0 l) {s' : Store K V} {os : List (Option V)}
    (h : s.run (.begin :: l ++ [.rollback]) = .ok (s', os)) : s' = s := by
  rw [run_append] at h
  simp only [bind, Except.bind, pure, Except.pure] at h
  split at h
  · cases h
  rename_i r hr
  obtain ⟨s1, os1⟩ := r
  simp only [Store.run, Store.step, bind, Except.bind, pure, Except.pure] at h hr
  split at hr
  · cases hr
  rename_i r2 hr2
  cases hr
  obtain ⟨b, ls⟩ := s
  obtain ⟨o, ho⟩ := run_balanced l hb (us := [NoditMap.new]) rfl ls hr2
  cases h
  rw [ho]; rfl

end Nodit.Txn
