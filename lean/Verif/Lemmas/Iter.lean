import Verif.IterSpec
import Verif.Lemmas.Basic
/-!
# Iterator adapters simulate operations on lists
-/
set_option linter.unusedSectionVars false
namespace Nodit.It
variable {σ τ α β : Type}

/-- the call has this outcome and no other -/
def Det (it : Method σ α) (s : σ) (r : Res (Option α)) (s' : σ) : Prop :=
  it s r s' ∧ ∀ r₁ s₁, it s r₁ s₁ → r₁ = r ∧ s₁ = s'

/-- `R s l` is kept by `next()` and says that `l` is what is left -/
structure Sim (it : Method σ α) (R : σ → List α → Prop) : Prop where
  nil : ∀ {s}, R s [] → ∃ s', Det it s (.ok none) s' ∧ R s' []
  cons : ∀ {s a l}, R s (a :: l) → ∃ s', Det it s (.ok (some a)) s' ∧ R s' l

/-- the same for `next_back()` -/
structure SimBack (it : Method σ α) (R : σ → List α → Prop) : Prop where
  nil : ∀ {s}, R s [] → ∃ s', Det it s (.ok none) s' ∧ R s' []
  snoc : ∀ {s a l}, R s (l ++ [a]) → ∃ s', Det it s (.ok (some a)) s' ∧ R s' l

/-- both -/
structure Sim2 (it : DoubleEnded σ α) (R : σ → List α → Prop) : Prop where
  next : Sim it.next R
  nextBack : SimBack it.nextBack R

theorem Det.ofFun (f : σ → Option α × σ) (s : σ) : Det (ofFun f) s (.ok (f s).1) (f s).2 :=
  ⟨⟨rfl, rfl⟩, fun _ _ h => h⟩

theorem Sim.step {it : Method σ α} {R} (h : Sim it R) {s : σ} {l : List α} (hs : R s l) :
    ∃ s', Det it s (.ok l.head?) s' ∧ R s' l.tail := by
  cases l with
  | nil => exact h.nil hs
  | cons a l => exact h.cons hs

theorem SimBack.step {it : Method σ α} {R} (h : SimBack it R) {s : σ} {l : List α} (hs : R s l) :
    ∃ s', Det it s (.ok l.getLast?) s' ∧ R s' l.dropLast := by
  rcases List.eq_nil_or_concat l with rfl | ⟨l, a, rfl⟩
  · exact h.nil hs
  · rw [List.concat_eq_append] at hs ⊢
    simpa using h.snoc hs

theorem Sim.yields {it : Method σ α} {R} (h : Sim it R) {s : σ} {l : List α} (hs : R s l) : Yields it s l := by
  intro n
  induction n generalizing s l with
  | zero =>
    refine ⟨⟨[], s, rfl, .nil⟩, fun rs s' hl _ => ?_⟩
    simpa using List.length_eq_zero_iff.1 hl
  | succ n ih =>
    obtain ⟨s1, hd, h1⟩ := h.step hs
    obtain ⟨⟨rs, s2, hl, hp⟩, hu⟩ := ih h1
    refine ⟨⟨_, s2, by simp [hl], .cons hd.1 hp⟩, fun rs s' hl hp => ?_⟩
    cases hp with
    | nil => simp at hl
    | cons h1 h2 =>
      obtain ⟨rfl, rfl⟩ := hd.2 _ _ h1
      rw [hu _ _ (by simpa using hl) h2, List.range_succ_eq_map]
      simp only [List.map_cons, List.map_map, List.cons.injEq]
      refine ⟨by cases l <;> simp, ?_⟩
      apply List.map_congr_left
      intro i _
      cases l <;> simp

theorem Sim2.method {it : DoubleEnded σ α} {R} (h : Sim2 it R) (e : End) {s : σ} {l : List α} (hs : R s l) :
    ∃ r l' s', takeEnds l [e] = [r] ∧ (∀ es, takeEnds l (e :: es) = r :: takeEnds l' es) ∧
      Det (it.method e) s (.ok r) s' ∧ R s' l' := by
  cases e with
  | front =>
    obtain ⟨s', hd, h'⟩ := h.next.step hs
    exact ⟨_, _, s', rfl, fun _ => rfl, hd, h'⟩
  | back =>
    obtain ⟨s', hd, h'⟩ := h.nextBack.step hs
    exact ⟨_, _, s', rfl, fun _ => rfl, hd, h'⟩

theorem Sim2.yields {it : DoubleEnded σ α} {R} (h : Sim2 it R) {s : σ} {l : List α} (hs : R s l) :
    YieldsBothEnds it s l := by
  intro es
  induction es generalizing s l with
  | nil =>
    refine ⟨⟨[], s, rfl, .nil⟩, fun tr s' hl _ => ?_⟩
    rw [List.map_eq_nil_iff.1 hl]; rfl
  | cons e es ih =>
    obtain ⟨r, l', s1, -, ht, hd, h1⟩ := h.method e hs
    obtain ⟨⟨tr, s2, hl, hp⟩, hu⟩ := ih h1
    refine ⟨⟨_ :: tr, s2, by simp [hl], .cons hd.1 hp⟩, fun tr s' hl hp => ?_⟩
    cases hp with
    | nil => simp at hl
    | cons h1 h2 =>
      simp only [List.map_cons, List.cons.injEq] at hl
      obtain ⟨rfl, hl⟩ := hl
      obtain ⟨rfl, rfl⟩ := hd.2 _ _ h1
      rw [ht]
      simp [hu _ _ hl h2]

/-! ## The basic iterators -/

theorem sim_option : Sim (option : Method (Option α) α) (fun s l => l = s.toList) := by
  constructor
  · intro s hs
    cases s with
    | none => exact ⟨none, Det.ofFun _ none, rfl⟩
    | some a => simp at hs
  · intro s a l hs
    cases s with
    | none => simp at hs
    | some b =>
      simp only [Option.toList_some, List.cons.injEq] at hs
      obtain ⟨rfl, rfl⟩ := hs
      exact ⟨none, Det.ofFun _ (some a), rfl⟩

theorem sim_slice : Sim2 (slice : DoubleEnded (List α) α) (fun s l => s = l) := by
  refine ⟨⟨?_, ?_⟩, ⟨?_, ?_⟩⟩
  · rintro s rfl; exact ⟨[], Det.ofFun _ [], rfl⟩
  · rintro s a l rfl; exact ⟨l, Det.ofFun _ (a :: l), rfl⟩
  · rintro s rfl; exact ⟨[], Det.ofFun _ [], rfl⟩
  · rintro s a l rfl
    refine ⟨l, ?_, rfl⟩
    have := Det.ofFun (fun l : List α => (l.getLast?, l.dropLast)) (l ++ [a])
    simpa [slice] using this

theorem sim_vec : Sim (vec : Method (List α) α) (fun s l => s = l) := sim_slice.next

/-- the entries between the two edges -/
def Range.left {K V : Type} (s : Range K V) : List (K × V) := (s.entries.take s.hi).drop s.lo

theorem slice_nil {l : List α} {lo hi : Nat} (hle : lo ≤ hi) (hhi : hi ≤ l.length) (h : (l.take hi).drop lo = []) : lo = hi := by
  have := congrArg List.length h
  simp at this
  omega

theorem slice_cons {l : List α} {a : α} {r : List α} {lo hi : Nat} (h : (l.take hi).drop lo = a :: r) :
    lo < hi ∧ l[lo]? = some a ∧ (l.take hi).drop (lo + 1) = r := by
  have h1 := congrArg List.length h
  simp at h1
  have hlt : lo < (l.take hi).length := by simp; omega
  have := List.drop_eq_getElem_cons hlt
  rw [this, List.cons.injEq] at h
  refine ⟨by omega, ?_, h.2⟩
  rw [← h.1, List.getElem_take]
  exact List.getElem?_eq_getElem (by simp at hlt; omega)

theorem slice_snoc {l : List α} {a : α} {r : List α} {lo hi : Nat} (hhi : hi ≤ l.length)
    (h : (l.take hi).drop lo = r ++ [a]) :
    lo < hi ∧ l[hi - 1]? = some a ∧ (l.take (hi - 1)).drop lo = r := by
  have h1 := congrArg List.length h
  simp at h1
  have hlt : lo < hi := by omega
  have e : l.take hi = l.take (hi - 1) ++ [l[hi - 1]'(by omega)] := by
    have := List.take_succ_eq_append_getElem (l := l) (i := hi - 1) (by omega)
    rwa [Nat.sub_add_cancel (by omega)] at this
  rw [e, List.drop_append_of_le_length (by simp; omega)] at h
  obtain ⟨h2, h3⟩ := List.append_inj' h rfl
  refine ⟨hlt, ?_, h2⟩
  rw [List.getElem?_eq_getElem (by omega)]
  simpa using h3

theorem sim_range {K V : Type} : Sim2 (range : DoubleEnded (Range K V) (K × V))
    (fun s l => s.lo ≤ s.hi ∧ s.hi ≤ s.entries.length ∧ (s.entries.take s.hi).drop s.lo = l) := by
  refine ⟨⟨?_, ?_⟩, ⟨?_, ?_⟩⟩
  · rintro s ⟨h1, h2, h3⟩
    have := slice_nil h1 h2 h3
    refine ⟨s, ?_, h1, h2, h3⟩
    have := Det.ofFun (fun s : Range K V => if s.lo = s.hi then (none, s) else (s.entries[s.lo]?, { s with lo := s.lo + 1 })) s
    simpa [*, range] using this
  · rintro s a l ⟨h1, h2, h3⟩
    obtain ⟨h4, h5, h6⟩ := slice_cons h3
    refine ⟨{ s with lo := s.lo + 1 }, ?_, h4, h2, h6⟩
    have := Det.ofFun (fun s : Range K V => if s.lo = s.hi then (none, s) else (s.entries[s.lo]?, { s with lo := s.lo + 1 })) s
    simpa [h4.ne, h5, range] using this
  · rintro s ⟨h1, h2, h3⟩
    have := slice_nil h1 h2 h3
    refine ⟨s, ?_, h1, h2, h3⟩
    have := Det.ofFun (fun s : Range K V => if s.lo = s.hi then (none, s) else (s.entries[s.hi - 1]?, { s with hi := s.hi - 1 })) s
    simpa [*, range] using this
  · rintro s a l ⟨h1, h2, h3⟩
    obtain ⟨h4, h5, h6⟩ := slice_snoc h2 h3
    refine ⟨{ s with hi := s.hi - 1 }, ?_, ?_, ?_, h6⟩
    · have := Det.ofFun (fun s : Range K V => if s.lo = s.hi then (none, s) else (s.entries[s.hi - 1]?, { s with hi := s.hi - 1 })) s
      simpa [h4.ne, h5, range] using this
    · show s.lo ≤ s.hi - 1; omega
    · show s.hi - 1 ≤ s.entries.length; omega

theorem sim_iter {K V : Type} : Sim2 (iter : DoubleEnded (Iter K V) (K × V))
    (fun s l => s.lo + s.length = s.hi ∧ s.hi ≤ s.entries.length ∧ (s.entries.take s.hi).drop s.lo = l) := by
  refine ⟨⟨?_, ?_⟩, ⟨?_, ?_⟩⟩
  · rintro s ⟨h1, h2, h3⟩
    have := slice_nil (by omega) h2 h3
    refine ⟨s, ?_, h1, h2, h3⟩
    have := Det.ofFun (fun s : Iter K V => if s.length = 0 then (none, s) else
      (s.entries[s.lo]?, { s with lo := s.lo + 1, length := s.length - 1 })) s
    have h0 : s.length = 0 := by omega
    simpa [h0, iter] using this
  · rintro s a l ⟨h1, h2, h3⟩
    obtain ⟨h4, h5, h6⟩ := slice_cons h3
    refine ⟨{ s with lo := s.lo + 1, length := s.length - 1 }, ?_, ?_, h2, h6⟩
    · have := Det.ofFun (fun s : Iter K V => if s.length = 0 then (none, s) else
        (s.entries[s.lo]?, { s with lo := s.lo + 1, length := s.length - 1 })) s
      have h0 : s.length ≠ 0 := by omega
      simpa [h0, h5, iter] using this
    · show s.lo + 1 + (s.length - 1) = s.hi; omega
  · rintro s ⟨h1, h2, h3⟩
    have := slice_nil (by omega) h2 h3
    refine ⟨s, ?_, h1, h2, h3⟩
    have := Det.ofFun (fun s : Iter K V => if s.length = 0 then (none, s) else
      (s.entries[s.hi - 1]?, { s with hi := s.hi - 1, length := s.length - 1 })) s
    have h0 : s.length = 0 := by omega
    simpa [h0, iter] using this
  · rintro s a l ⟨h1, h2, h3⟩
    obtain ⟨h4, h5, h6⟩ := slice_snoc h2 h3
    refine ⟨{ s with hi := s.hi - 1, length := s.length - 1 }, ?_, ?_, ?_, h6⟩
    · have := Det.ofFun (fun s : Iter K V => if s.length = 0 then (none, s) else
        (s.entries[s.hi - 1]?, { s with hi := s.hi - 1, length := s.length - 1 })) s
      have h0 : s.length ≠ 0 := by omega
      simpa [h0, h5, iter] using this
    · show s.lo + (s.length - 1) = s.hi - 1; omega
    · show s.hi - 1 ≤ s.entries.length; omega

theorem mkRange_left {K V : Type} (lower upper : K → Ordering) (l : List (K × V)) :
    (mkRange lower upper l).lo ≤ (mkRange lower upper l).hi ∧ (mkRange lower upper l).hi ≤ l.length ∧
      (l.take (mkRange lower upper l).hi).drop (mkRange lower upper l).lo = BTree.range lower upper l := by
  have key : ∀ p : K × V → Bool, ∀ l : List (K × V), l.drop (l.takeWhile p).length = l.dropWhile p := by
    intro p l
    induction l with
    | nil => rfl
    | cons a l ih => cases hp : p a <;> simp [List.takeWhile_cons, List.dropWhile_cons, hp, ih]
  have key' : ∀ p : K × V → Bool, ∀ l : List (K × V), l.take (l.takeWhile p).length = l.takeWhile p := by
    intro p l
    exact (List.prefix_iff_eq_take.1 (List.takeWhile_prefix p)).symm
  simp only [mkRange, BTree.range]
  refine ⟨by omega, ?_, ?_⟩
  · have h1 := (List.takeWhile_prefix (fun e => lower e.1 == .gt) (l := l)).length_le
    have h2 := (List.takeWhile_prefix (fun e => upper e.1 != .lt)
      (l := l.drop (l.takeWhile (fun e => lower e.1 == .gt)).length)).length_le
    simp only [List.length_drop] at h2
    omega
  · rw [List.drop_take, Nat.add_sub_cancel_left, key', key]

/-! ## Adapters -/

theorem sim_map {f : α → Res β} {it : Method σ α} {R : σ → List α → Prop} (h : Sim it R) :
    Sim (map f it) (fun s l' => ∃ l, R s l ∧ List.Forall₂ (fun a b => f a = .ok b) l l') := by
  constructor
  · rintro s ⟨l, hs, hf⟩
    cases hf
    obtain ⟨s', hd, h'⟩ := h.nil hs
    refine ⟨s', ⟨.done hd.1, ?_⟩, [], h', .nil⟩
    intro r₁ s₁ hm
    cases hm <;> (have := hd.2 _ _ ‹_›; simp_all)
  · rintro s b l' ⟨l, hs, hf⟩
    cases hf with
    | cons hb ht =>
    obtain ⟨s', hd, h'⟩ := h.cons hs
    refine ⟨s', ⟨.item hd.1 hb, ?_⟩, _, h', ht⟩
    intro r₁ s₁ hm
    cases hm <;> (have := hd.2 _ _ ‹_›; simp_all)

theorem simBack_map {f : α → Res β} {it : Method σ α} {R : σ → List α → Prop} (h : SimBack it R) :
    SimBack (map f it) (fun s l' => ∃ l, R s l ∧ List.Forall₂ (fun a b => f a = .ok b) l l') := by
  constructor
  · rintro s ⟨l, hs, hf⟩
    cases hf
    obtain ⟨s', hd, h'⟩ := h.nil hs
    refine ⟨s', ⟨.done hd.1, ?_⟩, [], h', .nil⟩
    intro r₁ s₁ hm
    cases hm <;> (have := hd.2 _ _ ‹_›; simp_all)
  · rintro s b l' ⟨l, hs, hf⟩
    have hr := List.rel_reverse hf
    rw [List.reverse_append, List.reverse_singleton] at hr
    obtain ⟨a, l₀, hb, ht, hl⟩ : ∃ a l₀, f a = .ok b ∧ List.Forall₂ (fun a b => f a = .ok b) l₀ l'.reverse ∧
        l.reverse = a :: l₀ := by
      generalize l.reverse = x at hr
      cases hr with
      | cons h1 h2 => exact ⟨_, _, h1, h2, rfl⟩
    have hl' : l = l₀.reverse ++ [a] := by
      rw [← List.reverse_reverse l, hl]; simp
    subst hl'
    obtain ⟨s', hd, h'⟩ := h.snoc hs
    refine ⟨s', ⟨.item hd.1 hb, ?_⟩, _, h', ?_⟩
    · intro r₁ s₁ hm
      cases hm <;> (have := hd.2 _ _ ‹_›; simp_all)
    · have := List.rel_reverse ht
      simpa using this

theorem sim2_map {f : α → Res β} {it : DoubleEnded σ α} {R : σ → List α → Prop} (h : Sim2 it R) :
    Sim2 (it.map f) (fun s l' => ∃ l, R s l ∧ List.Forall₂ (fun a b => f a = .ok b) l l') :=
  ⟨sim_map h.next, simBack_map h.nextBack⟩

theorem simBack_rev {it : Method σ α} {R : σ → List α → Prop} (h : SimBack it R) :
    Sim it (fun s l => R s l.reverse) := by
  constructor
  · intro s hs; exact h.nil hs
  · intro s a l hs; rw [List.reverse_cons] at hs; exact h.snoc hs

theorem sim_filterMap {g : α → Option β} {it : Method σ α} {R : σ → List α → Prop} (h : Sim it R) :
    Sim (filterMap g it) (fun s l' => ∃ l, R s l ∧ l' = l.filterMap g) := by
  have key : ∀ (l : List α) (s : σ), R s l → ∃ s', Det (filterMap g it) s (.ok (l.filterMap g).head?) s' ∧
      ∃ l₁, R s' l₁ ∧ (l.filterMap g).tail = l₁.filterMap g := by
    intro l
    induction l with
    | nil =>
      intro s hs
      obtain ⟨s', hd, h'⟩ := h.nil hs
      refine ⟨s', ⟨.done hd.1, ?_⟩, [], h', rfl⟩
      intro r₁ s₁ hm
      cases hm <;> (have := hd.2 _ _ ‹_›; simp_all)
    | cons a l ih =>
      intro s hs
      obtain ⟨s', hd, h'⟩ := h.cons hs
      cases hg : g a with
      | some b =>
        rw [List.filterMap_cons_some hg]
        refine ⟨s', ⟨.item hd.1 hg, ?_⟩, l, h', rfl⟩
        intro r₁ s₁ hm
        cases hm <;> (have := hd.2 _ _ ‹_›; simp_all)
      | none =>
        rw [List.filterMap_cons_none hg]
        obtain ⟨s'', hd', h''⟩ := ih s' h'
        refine ⟨s'', ⟨.skip hd.1 hg hd'.1, ?_⟩, h''⟩
        intro r₁ s₁ hm
        cases hm with
        | skip h1 h2 h3 =>
          obtain ⟨-, rfl⟩ := hd.2 _ _ h1
          exact hd'.2 _ _ h3
        | done h1 => have := hd.2 _ _ h1; simp_all
        | item h1 h2 => have := hd.2 _ _ h1; simp_all
        | inner h1 => have := hd.2 _ _ h1; simp_all
  constructor
  · rintro s ⟨l, hs, hl⟩
    obtain ⟨s', hd, l₁, h1, h2⟩ := key l s hs
    rw [← hl] at hd h2
    exact ⟨s', hd, l₁, h1, h2⟩
  · rintro s a l' ⟨l, hs, hl⟩
    obtain ⟨s', hd, l₁, h1, h2⟩ := key l s hs
    rw [← hl] at hd h2
    exact ⟨s', hd, l₁, h1, h2⟩

theorem sim_filter {p : α → Bool} {it : Method σ α} {R : σ → List α → Prop} (h : Sim it R) :
    Sim (filter p it) (fun s l' => ∃ l, R s l ∧ l' = l.filter p) := by
  have := sim_filterMap (g := fun a => if p a then some a else none) h
  have e : ∀ l : List α, l.filterMap (fun a => if p a then some a else none) = l.filter p := by
    intro l
    induction l with
    | nil => rfl
    | cons a l ih => cases hp : p a <;> simp [List.filterMap_cons, List.filter_cons, hp, ih]
  simp only [e] at this
  exact this

theorem sim_takeWhile {p : α → Bool} {it : Method σ α} {R : σ → List α → Prop} (h : Sim it R) :
    Sim (takeWhile p it) (fun s l' => (s.2 = true ∧ l' = []) ∨ (s.2 = false ∧ ∃ l, R s.1 l ∧ l' = l.takeWhile p)) := by
  have flagged : ∀ s : σ, Det (takeWhile p it) (s, true) (.ok none) (s, true) := by
    intro s
    refine ⟨.flagged, fun r₁ s₁ hm => ?_⟩
    cases hm; exact ⟨rfl, rfl⟩
  constructor
  · rintro ⟨s, b⟩ (⟨rfl, -⟩ | ⟨rfl, l, hs, hl⟩)
    · exact ⟨_, flagged s, .inl ⟨rfl, rfl⟩⟩
    · cases l with
      | nil =>
        obtain ⟨s', hd, h'⟩ := h.nil hs
        refine ⟨(s', false), ⟨.done hd.1, ?_⟩, .inr ⟨rfl, [], h', rfl⟩⟩
        intro r₁ s₁ hm
        cases hm <;> (have := hd.2 _ _ ‹_›; grind)
      | cons a l =>
        obtain ⟨s', hd, h'⟩ := h.cons hs
        have hp : p a = false := by
          cases hp : p a
          · rfl
          · simp [List.takeWhile_cons, hp] at hl
        refine ⟨(s', true), ⟨.stop hd.1 hp, ?_⟩, .inl ⟨rfl, rfl⟩⟩
        intro r₁ s₁ hm
        cases hm <;> (have := hd.2 _ _ ‹_›; simp_all)
  · rintro ⟨s, b⟩ a l' (⟨rfl, hn⟩ | ⟨rfl, l, hs, hl⟩)
    · simp at hn
    · cases l with
      | nil => simp at hl
      | cons a' l =>
        cases hp : p a'
        · simp [List.takeWhile_cons, hp] at hl
        · simp only [List.takeWhile_cons, hp, if_true, List.cons.injEq] at hl
          obtain ⟨rfl, rfl⟩ := hl
          obtain ⟨s', hd, h'⟩ := h.cons hs
          refine ⟨(s', false), ⟨.item hd.1 hp, ?_⟩, .inr ⟨rfl, l, h', rfl⟩⟩
          intro r₁ s₁ hm
          cases hm <;> (have := hd.2 _ _ ‹_›; simp_all)

theorem sim_chain {it : Method σ α} {jt : Method τ α} {R : σ → List α → Prop} {S : τ → List α → Prop} (h : Sim it R)
    (h' : Sim jt S) : Sim (chain it jt) (fun s l => match s.1 with
      | some s₁ => ∃ l₁ l₂, R s₁ l₁ ∧ S s.2 l₂ ∧ l = l₁ ++ l₂
      | none => S s.2 l) := by
  have key : ∀ (s : Option σ × τ) (l : List α), (match s.1 with
      | some s₁ => ∃ l₁ l₂, R s₁ l₁ ∧ S s.2 l₂ ∧ l = l₁ ++ l₂
      | none => S s.2 l) → ∃ s', Det (chain it jt) s (.ok l.head?) s' ∧ (match s'.1 with
      | some s₁ => ∃ l₁ l₂, R s₁ l₁ ∧ S s'.2 l₂ ∧ l.tail = l₁ ++ l₂
      | none => S s'.2 l.tail) := by
    rintro ⟨_ | s, t⟩ l hs
    · obtain ⟨t', hd, ht⟩ := h'.step hs
      refine ⟨(none, t'), ⟨.second hd.1, ?_⟩, ht⟩
      intro r₁ s₁ hm
      cases hm with
      | second h1 => obtain ⟨rfl, rfl⟩ := hd.2 _ _ h1; exact ⟨rfl, rfl⟩
    · obtain ⟨l₁, l₂, h1, h2, rfl⟩ := hs
      cases l₁ with
      | nil =>
        obtain ⟨s', hd, hs'⟩ := h.nil h1
        obtain ⟨t', hd', ht⟩ := h'.step h2
        refine ⟨(none, t'), ⟨.switch hd.1 hd'.1, ?_⟩, ht⟩
        intro r₁ s₁ hm
        cases hm with
        | switch h1 h2 => obtain ⟨rfl, rfl⟩ := hd'.2 _ _ h2; exact ⟨rfl, rfl⟩
        | first h1 => have := hd.2 _ _ h1; simp_all
        | inner h1 => have := hd.2 _ _ h1; simp_all
      | cons a l₁ =>
        obtain ⟨s', hd, hs'⟩ := h.cons h1
        refine ⟨(some s', t), ⟨.first hd.1, ?_⟩, l₁, l₂, hs', h2, rfl⟩
        intro r₁ s₁ hm
        cases hm with
        | switch h1 h2 => have := hd.2 _ _ h1; simp_all
        | first h1 => have := hd.2 _ _ h1; simp_all
        | inner h1 => have := hd.2 _ _ h1; simp_all
  constructor
  · intro s hs; exact key s [] hs
  · intro s a l hs; exact key s (a :: l) hs

theorem sim_windows {it : Method σ α} {R : σ → List α → Prop} (h : Sim it R) :
    Sim (windows it) (fun s l => match s.2 with
      | none => ∃ xs, R s.1 xs ∧ l = tupleWindows xs
      | some w => ∃ xs, R s.1 xs ∧ l = tupleWindows (w.2 :: xs)) := by
  constructor
  · rintro ⟨s, _ | ⟨a, b⟩⟩ hs
    · obtain ⟨xs, hs, hl⟩ := hs
      match xs, hs, hl with
      | [], hs, _ =>
        obtain ⟨s', hd, h'⟩ := h.nil hs
        refine ⟨(s', none), ⟨.done hd.1, ?_⟩, [], h', rfl⟩
        intro r₁ s₁ hm
        cases hm <;> (have := hd.2 _ _ ‹_›; simp_all)
      | [x], hs, _ =>
        obtain ⟨s', hd, h'⟩ := h.cons hs
        obtain ⟨s'', hd', h''⟩ := h.nil h'
        refine ⟨(s'', none), ⟨.short hd.1 hd'.1, ?_⟩, [], h'', rfl⟩
        intro r₁ s₁ hm
        cases hm with
        | done h1 => have := hd.2 _ _ h1; simp_all
        | start h1 h2 => obtain ⟨-, rfl⟩ := hd.2 _ _ h1; have := hd'.2 _ _ h2; simp_all
        | short h1 h2 => obtain ⟨-, rfl⟩ := hd.2 _ _ h1; have := hd'.2 _ _ h2; simp_all
        | inner h1 => have := hd.2 _ _ h1; simp_all
        | inner' h1 h2 => obtain ⟨-, rfl⟩ := hd.2 _ _ h1; have := hd'.2 _ _ h2; simp_all
      | x :: y :: xs, hs, hl => simp [tupleWindows] at hl
    · obtain ⟨xs, hs, hl⟩ := hs
      cases xs with
      | cons x xs => simp [tupleWindows] at hl
      | nil =>
        obtain ⟨s', hd, h'⟩ := h.nil hs
        refine ⟨(s', some (a, b)), ⟨.done hd.1, ?_⟩, [], h', rfl⟩
        intro r₁ s₁ hm
        cases hm <;> (have := hd.2 _ _ ‹_›; simp_all)
  · rintro ⟨s, _ | ⟨a, b⟩⟩ w l hs
    · obtain ⟨xs, hs, hl⟩ := hs
      match xs, hs, hl with
      | [], _, hl => simp [tupleWindows] at hl
      | [_], _, hl => simp [tupleWindows] at hl
      | x :: y :: xs, hs, hl =>
        simp only [tupleWindows, List.cons.injEq] at hl
        obtain ⟨rfl, rfl⟩ := hl
        obtain ⟨s', hd, h'⟩ := h.cons hs
        obtain ⟨s'', hd', h''⟩ := h.cons h'
        refine ⟨(s'', some (x, y)), ⟨.start hd.1 hd'.1, ?_⟩, xs, h'', rfl⟩
        intro r₁ s₁ hm
        cases hm with
        | done h1 => have := hd.2 _ _ h1; simp_all
        | start h1 h2 => obtain ⟨h3, rfl⟩ := hd.2 _ _ h1; have := hd'.2 _ _ h2; simp_all
        | short h1 h2 => obtain ⟨-, rfl⟩ := hd.2 _ _ h1; have := hd'.2 _ _ h2; simp_all
        | inner h1 => have := hd.2 _ _ h1; simp_all
        | inner' h1 h2 => obtain ⟨-, rfl⟩ := hd.2 _ _ h1; have := hd'.2 _ _ h2; simp_all
    · obtain ⟨xs, hs, hl⟩ := hs
      cases xs with
      | nil => simp [tupleWindows] at hl
      | cons c xs =>
        simp only [tupleWindows, List.cons.injEq] at hl
        obtain ⟨rfl, rfl⟩ := hl
        obtain ⟨s', hd, h'⟩ := h.cons hs
        refine ⟨(s', some (b, c)), ⟨.shift hd.1, ?_⟩, xs, h', rfl⟩
        intro r₁ s₁ hm
        cases hm <;> (have := hd.2 _ _ ‹_›; simp_all)

/-! ### `coalesce` -/

theorem coalesceFold_det {f : α → α → Res (Except (α × α) α)} {it : Method σ α} {R : σ → List α → Prop} (h : Sim it R) :
    ∀ (l : List α) (s : σ) (acc : α) (out : List α), R s l → coalesceFrom f acc l = .ok out →
      ∃ a k s' l', out = a :: (match k with | none => [] | some b => (out.tail)) ∧
        coalesceFold f it s acc (.ok a) s' k ∧
        (∀ r₁ s₁ k₁, coalesceFold f it s acc r₁ s₁ k₁ → r₁ = .ok a ∧ s₁ = s' ∧ k₁ = k) ∧ R s' l' ∧
        (match k with | none => l' = [] ∧ out.tail = [] | some b => coalesceFrom f b l' = .ok out.tail) := by
  intro l
  induction l with
  | nil =>
    intro s acc out hs ho
    obtain ⟨s', hd, h'⟩ := h.nil hs
    simp only [coalesceFrom, pure, Except.pure, Except.ok.injEq] at ho
    subst ho
    refine ⟨acc, none, s', [], rfl, .done hd.1, ?_, h', rfl, rfl⟩
    intro r₁ s₁ k₁ hm
    cases hm <;> (have := hd.2 _ _ ‹_›; simp_all)
  | cons x l ih =>
    intro s acc out hs ho
    obtain ⟨s', hd, h'⟩ := h.cons hs
    simp only [coalesceFrom, bind, Except.bind] at ho
    cases hf : f acc x with
    | error p => simp [hf] at ho
    | ok z =>
      cases z with
      | ok z =>
        simp only [hf] at ho
        obtain ⟨a, k, s'', l', h1, h2, h3, h4, h5⟩ := ih s' z out h' ho
        refine ⟨a, k, s'', l', h1, .join hd.1 hf h2, ?_, h4, h5⟩
        intro r₁ s₁ k₁ hm
        cases hm with
        | join g1 g2 g3 =>
          obtain ⟨he, rfl⟩ := hd.2 _ _ g1
          cases he
          rw [hf] at g2
          cases g2
          exact h3 _ _ _ g3
        | done g1 => have := hd.2 _ _ g1; grind
        | keep g1 g2 => have := hd.2 _ _ g1; grind
        | panics g1 g2 => have := hd.2 _ _ g1; grind
        | inner g1 => have := hd.2 _ _ g1; grind
      | error ab =>
        obtain ⟨a, b⟩ := ab
        simp only [hf] at ho
        cases hr : coalesceFrom f b l with
        | error p => simp [hr] at ho
        | ok r =>
          simp only [hr, pure, Except.pure, Except.ok.injEq] at ho
          subst ho
          refine ⟨a, some b, s', l, rfl, .keep hd.1 hf, ?_, h', hr⟩
          intro r₁ s₁ k₁ hm
          cases hm with
          | join g1 g2 g3 => have := hd.2 _ _ g1; grind
          | done g1 => have := hd.2 _ _ g1; grind
          | keep g1 g2 => have := hd.2 _ _ g1; grind
          | panics g1 g2 => have := hd.2 _ _ g1; grind
          | inner g1 => have := hd.2 _ _ g1; grind

theorem sim_coalesce {f : α → α → Res (Except (α × α) α)} {it : Method σ α} {R : σ → List α → Prop} (h : Sim it R) :
    Sim (coalesce f it) (fun s out => match s.2 with
      | none => ∃ l, R s.1 l ∧ Nodit.coalesce f l = .ok out
      | some none => out = []
      | some (some x) => ∃ l, R s.1 l ∧ coalesceFrom f x l = .ok out) := by
  have key : ∀ (s : σ × Option (Option α)) (out : List α), (match s.2 with
      | none => ∃ l, R s.1 l ∧ Nodit.coalesce f l = .ok out
      | some none => out = []
      | some (some x) => ∃ l, R s.1 l ∧ coalesceFrom f x l = .ok out) →
      ∃ s', Det (coalesce f it) s (.ok out.head?) s' ∧ (match s'.2 with
      | none => ∃ l, R s'.1 l ∧ Nodit.coalesce f l = .ok out.tail
      | some none => out.tail = []
      | some (some x) => ∃ l, R s'.1 l ∧ coalesceFrom f x l = .ok out.tail) := by
    rintro ⟨s, _ | _ | x⟩ out hs
    · obtain ⟨l, hs, ho⟩ := hs
      cases l with
      | nil =>
        obtain ⟨s', hd, h'⟩ := h.nil hs
        simp only [Nodit.coalesce, pure, Except.pure, Except.ok.injEq] at ho
        subst ho
        refine ⟨(s', some none), ⟨.empty hd.1, ?_⟩, rfl⟩
        intro r₁ s₁ hm
        cases hm with
        | empty g1 => have := hd.2 _ _ g1; grind
        | first g1 g2 => have := hd.2 _ _ g1; grind
        | inner g1 => have := hd.2 _ _ g1; grind
      | cons x l =>
        obtain ⟨s', hd, h'⟩ := h.cons hs
        obtain ⟨a, k, s'', l', h1, h2, h3, h4, h5⟩ := coalesceFold_det h l s' x out h' ho
        have hh : out.head? = some a := by rw [h1]; rfl
        refine ⟨(s'', some k), ⟨?_, ?_⟩, ?_⟩
        · rw [hh]; exact .first hd.1 h2
        · intro r₁ s₁ hm
          cases hm with
          | empty g1 => have := hd.2 _ _ g1; grind
          | first g1 g2 =>
            obtain ⟨he, rfl⟩ := hd.2 _ _ g1
            cases he
            obtain ⟨rfl, rfl, rfl⟩ := h3 _ _ _ g2
            rw [hh]; exact ⟨rfl, rfl⟩
          | inner g1 => have := hd.2 _ _ g1; grind
        · cases k with
          | none => exact h5.2
          | some b => exact ⟨l', h4, h5⟩
    · have hs' : out = [] := hs
      subst hs'
      refine ⟨(s, some none), ⟨.over, ?_⟩, rfl⟩
      intro r₁ s₁ hm
      cases hm; exact ⟨rfl, rfl⟩
    · obtain ⟨l, hs, ho⟩ := hs
      obtain ⟨a, k, s'', l', h1, h2, h3, h4, h5⟩ := coalesceFold_det h l s x out hs ho
      have hh : out.head? = some a := by rw [h1]; rfl
      refine ⟨(s'', some k), ⟨?_, ?_⟩, ?_⟩
      · rw [hh]; exact .later h2
      · intro r₁ s₁ hm
        cases hm with
        | later g2 =>
          obtain ⟨rfl, rfl, rfl⟩ := h3 _ _ _ g2
          rw [hh]; exact ⟨rfl, rfl⟩
      · cases k with
        | none => exact h5.2
        | some b => exact ⟨l', h4, h5⟩
  constructor
  · intro s hs; exact key s [] hs
  · intro s a l hs; exact key s (a :: l) hs

/-! ### `flat_map` -/

/-- what is left of an optional inner iterator -/
def OptR (S : τ → List α → Prop) (t : Option τ) (l : List α) : Prop := match t with
  | none => l = []
  | some t => S t l

/-- what is left of a `flat_map` -/
def FlatR (R : σ → List τ → Prop) (S : τ → List α → Prop) (st : Option τ × σ × Option τ) (l : List α) : Prop :=
  ∃ lf ts ls lb, OptR S st.1 lf ∧ R st.2.1 ts ∧ List.Forall₂ S ts ls ∧ OptR S st.2.2 lb ∧ l = lf ++ ls.flatten ++ lb

theorem sim_orClear {it : Method σ α} {R : σ → List α → Prop} (h : Sim it R) : Sim (orClear it) (OptR R) := by
  constructor
  · rintro (_ | s) hs
    · refine ⟨none, ⟨.absent, ?_⟩, rfl⟩
      intro r₁ s₁ hm
      cases hm; exact ⟨rfl, rfl⟩
    · obtain ⟨s', hd, h'⟩ := h.nil hs
      refine ⟨none, ⟨.clear hd.1, ?_⟩, rfl⟩
      intro r₁ s₁ hm
      cases hm with
      | some g => have := hd.2 _ _ g; simp_all
      | clear g => exact ⟨rfl, rfl⟩
      | inner g => have := hd.2 _ _ g; simp_all
  · rintro (_ | s) a l hs
    · simp [OptR] at hs
    · obtain ⟨s', hd, h'⟩ := h.cons hs
      refine ⟨some s', ⟨.some hd.1, ?_⟩, h'⟩
      intro r₁ s₁ hm
      cases hm with
      | some g => have := hd.2 _ _ g; simp_all
      | clear g => have := hd.2 _ _ g; simp_all
      | inner g => have := hd.2 _ _ g; simp_all

theorem sim_flatNext {outer : Method σ τ} {inner : Method τ α} {R : σ → List τ → Prop} {S : τ → List α → Prop}
    (ho : Sim outer R) (hi : Sim inner S) : Sim (flatNext outer inner inner) (FlatR R S) := by
  have hc := sim_orClear hi
  have key : ∀ (ts : List τ) (ls : List (List α)) (f : Option τ) (lf : List α) (s : σ) (b : Option τ) (lb : List α),
      OptR S f lf → R s ts → List.Forall₂ S ts ls → OptR S b lb →
      ∃ st, Det (flatNext outer inner inner) (f, s, b) (.ok (lf ++ ls.flatten ++ lb).head?) st ∧
        FlatR R S st (lf ++ ls.flatten ++ lb).tail := by
    intro ts
    induction ts with
    | nil =>
      intro ls f lf s b lb hf hs hl hb
      cases hl
      cases lf with
      | cons a lf =>
        obtain ⟨f', hd, h'⟩ := hc.cons hf
        refine ⟨(f', s, b), ⟨.here hd.1, ?_⟩, lf, [], [], lb, h', hs, .nil, hb, by simp⟩
        intro r₁ s₁ hm
        cases hm with
        | here g => obtain ⟨g1, rfl⟩ := hd.2 _ _ g; cases g1; exact ⟨rfl, rfl⟩
        | more g => have := hd.2 _ _ g; simp_all
        | last g => have := hd.2 _ _ g; simp_all
        | panic g => have := hd.2 _ _ g; simp_all
        | panic' g => have := hd.2 _ _ g; simp_all
      | nil =>
        obtain ⟨f', hd, h'⟩ := hc.nil hf
        obtain ⟨s', hd2, h2⟩ := ho.nil hs
        obtain ⟨b', hd3, h3⟩ := hc.step hb
        refine ⟨(f', s', b'), ⟨?_, ?_⟩, [], [], [], lb.tail, h', h2, .nil, h3, by simp⟩
        · simpa using flatNext.last hd.1 hd2.1 hd3.1
        · intro r₁ s₁ hm
          cases hm with
          | here g => have := hd.2 _ _ g; simp_all
          | more g g2 => have := hd2.2 _ _ g2; simp_all
          | last g g2 g3 =>
            obtain ⟨-, rfl⟩ := hd.2 _ _ g
            obtain ⟨-, rfl⟩ := hd2.2 _ _ g2
            obtain ⟨rfl, rfl⟩ := hd3.2 _ _ g3
            simp
          | panic g => have := hd.2 _ _ g; simp_all
          | panic' g g2 => have := hd2.2 _ _ g2; simp_all
    | cons t ts ih =>
      intro ls f lf s b lb hf hs hl hb
      obtain ⟨l, ls, hl1, hl2, rfl⟩ : ∃ l ls', S t l ∧ List.Forall₂ S ts ls' ∧ ls = l :: ls' := by
        cases hl with
        | cons h1 h2 => exact ⟨_, _, h1, h2, rfl⟩
      cases lf with
      | cons a lf =>
        obtain ⟨f', hd, h'⟩ := hc.cons hf
        refine ⟨(f', s, b), ⟨.here hd.1, ?_⟩, lf, t :: ts, l :: ls, lb, h', hs, .cons hl1 hl2, hb, by simp⟩
        intro r₁ s₁ hm
        cases hm with
        | here g => obtain ⟨g1, rfl⟩ := hd.2 _ _ g; cases g1; exact ⟨rfl, rfl⟩
        | more g => have := hd.2 _ _ g; simp_all
        | last g => have := hd.2 _ _ g; simp_all
        | panic g => have := hd.2 _ _ g; simp_all
        | panic' g => have := hd.2 _ _ g; simp_all
      | nil =>
        obtain ⟨f', hd, h'⟩ := hc.nil hf
        obtain ⟨s', hd2, h2⟩ := ho.cons hs
        obtain ⟨st, hd3, h3⟩ := ih ls (some t) l s' b lb hl1 h2 hl2 hb
        refine ⟨st, ⟨?_, ?_⟩, by simpa using h3⟩
        · simpa using flatNext.more hd.1 hd2.1 hd3.1
        · intro r₁ s₁ hm
          cases hm with
          | here g => have := hd.2 _ _ g; simp_all
          | more g g2 g3 =>
            obtain ⟨-, rfl⟩ := hd.2 _ _ g
            obtain ⟨e, rfl⟩ := hd2.2 _ _ g2
            cases e
            obtain ⟨rfl, rfl⟩ := hd3.2 _ _ g3
            simp
          | last g g2 g3 => have := hd2.2 _ _ g2; simp_all
          | panic g => have := hd.2 _ _ g; simp_all
          | panic' g g2 => have := hd2.2 _ _ g2; simp_all
  constructor
  · rintro ⟨f, s, b⟩ ⟨lf, ts, ls, lb, h1, h2, h3, h4, h5⟩
    have := key ts ls f lf s b lb h1 h2 h3 h4
    rw [← h5] at this
    exact this
  · rintro ⟨f, s, b⟩ a l ⟨lf, ts, ls, lb, h1, h2, h3, h4, h5⟩
    have := key ts ls f lf s b lb h1 h2 h3 h4
    rw [← h5] at this
    exact this

theorem FlatR.reverse {R : σ → List τ → Prop} {S : τ → List α → Prop} {f s b} {l : List α} (h : FlatR R S (f, s, b) l) :
    FlatR (fun s l => R s l.reverse) (fun t l => S t l.reverse) (b, s, f) l.reverse := by
  obtain ⟨lf, ts, ls, lb, h1, h2, h3, h4, rfl⟩ := h
  refine ⟨lb.reverse, ts.reverse, (ls.map List.reverse).reverse, lf.reverse, ?_, ?_, ?_, ?_, ?_⟩
  · cases b with
    | none => simpa [OptR] using h4
    | some t => simpa [OptR] using h4
  · simpa using h2
  · apply List.rel_reverse
    rw [List.forall₂_map_right_iff]
    simpa using h3
  · cases f with
    | none => simpa [OptR] using h1
    | some t => simpa [OptR] using h1
  · simp [List.reverse_flatten]

theorem sim2_flatMap {outer : DoubleEnded σ τ} {inner : DoubleEnded τ α} {R : σ → List τ → Prop} {S : τ → List α → Prop}
    (ho : Sim2 outer R) (hi : Sim2 inner S) : Sim2 (flatMap outer inner) (FlatR R S) := by
  refine ⟨sim_flatNext ho.next hi.next, ?_⟩
  have h := sim_flatNext (simBack_rev ho.nextBack) (simBack_rev hi.nextBack)
  have back : ∀ {f s b} {l : List α}, FlatR (fun s l => R s l.reverse) (fun t l => S t l.reverse) (f, s, b) l →
      FlatR R S (b, s, f) l.reverse := by
    intro f s b l hl
    have := hl.reverse
    simpa only [List.reverse_reverse] using this
  constructor
  · rintro ⟨f, s, b⟩ hs
    obtain ⟨⟨b', s', f'⟩, hd, h'⟩ := h.nil (s := (b, s, f)) hs.reverse
    refine ⟨(f', s', b'), ⟨hd.1, ?_⟩, back h'⟩
    rintro r₁ ⟨f₁, s₁, b₁⟩ hm
    obtain ⟨e1, e2⟩ := hd.2 _ _ hm
    cases e2
    exact ⟨e1, rfl⟩
  · rintro ⟨f, s, b⟩ a l hs
    have hr := hs.reverse
    rw [List.reverse_append, List.reverse_singleton] at hr
    obtain ⟨⟨b', s', f'⟩, hd, h'⟩ := h.cons (s := (b, s, f)) hr
    refine ⟨(f', s', b'), ⟨hd.1, ?_⟩, ?_⟩
    · rintro r₁ ⟨f₁, s₁, b₁⟩ hm
      obtain ⟨e1, e2⟩ := hd.2 _ _ hm
      cases e2
      exact ⟨e1, rfl⟩
    · have := back h'
      simpa using this

end Nodit.It
