import Verif.Props.Canonical
import Verif.Lemmas.GqditGaps
/-!
# C140: recognising numbers already seen, with bounded memory

A receiver gets numbered messages in any order, some repeatedly, and must process none twice. It keeps the numbers seen in a `NoditSet`, merging
neighbours; if there are more than `n` intervals it forgets the lowest one, and from then on refuses all numbers up to its end.
-/
set_option linter.unusedSectionVars false
namespace Nodit.Replay
open Spec PointType NoditMap NoditSet

variable {I K : Type} [PointType I] [IntervalType I K] [LawfulPoint I] [LawfulInterval I K]

/-- the receiver's state; numbers below `low` are refused. Models no lines of `/repo`. -/
structure Window (I K : Type) where
  seen : NoditSet K
  low : I

/-- One message: `if x < low || seen.contains_point(x) { return false } seen.insert_merge_touching(ii(x, x)).unwrap();
if seen.len() > n { let k = seen.first().unwrap(); seen.remove_overlapping(k); low = k.end().up().unwrap() } true`.
A client, models no lines of `/repo`. -/
def accept (n : Nat) (s : Window I K) (x : I) : Res (Window I K × Bool) := do
  if x < s.low then pure (s, false)
  else if ← s.seen.containsPoint x then pure (s, false)
  else
    match ← s.seen.insertMergeTouching (I := I) (ofInterval ⟨x, x⟩ : K) with
    | (_, .error _) => .error .explicit
    | (seen, .ok _) =>
      if seen.len ≤ n then pure (⟨seen, s.low⟩, true)
      else
        match seen.first with
        | none => .error .explicit
        | some k => do
          let (seen, _) ← seen.removeOverlapping (I := I) k
          match up (stop k) with
          | none => .error .explicit
          | some w => pure (⟨seen, w⟩, true)

/-- all messages in turn; which were accepted. A client, models no lines of `/repo`. -/
def receive (n : Nat) (s : Window I K) : List I → Res (Window I K × List Bool)
  | [] => pure (s, [])
  | x :: l => do
    let (s, b) ← accept n s x
    let (s, bs) ← receive n s l
    pure (s, b :: bs)

/-- the numbers accepted -/
def accepted (xs : List I) (bs : List Bool) : List I := ((xs.zip bs).filter Prod.snd).map Prod.fst

theorem runs_of_coalesced {s : NoditSet K} (h : Ascending (I := I) s.iter) (hc : Coalesced s.inner.iter) (i : Interval I) :
    MaximalRun (fun p => p ∈ points s) i ↔ ∃ k ∈ s.iter, start k = i.start ∧ stop k = i.stop := by
  have hw := NoditSet.wf_iff.2 h
  have hpts : (fun p => p ∈ points s) = fun p => s.inner.getAtPoint p = .ok (some ()) := by
    funext p
    obtain ⟨r, e1, e2⟩ := NoditMap.spec_getAtPoint hw p
    refine propext ⟨?_, ?_⟩
    · rintro ⟨k, hk, hp⟩
      rw [e1, (e2 ()).2 ⟨(k, ()), NoditSet.mem_iter.1 hk, hp, rfl⟩]
    · intro hr
      rw [e1] at hr; cases hr
      obtain ⟨e, he, hp, -⟩ := (e2 ()).1 rfl
      exact ⟨e.1, NoditSet.mem_iter.2 he, hp⟩
  rw [hpts]
  constructor
  · intro hi
    obtain ⟨p, hp⟩ := hi.1
    obtain ⟨r, h1, h2⟩ := NoditMap.spec_getAtPoint hw p
    have hr := hi.2.1 p hp
    simp only [h1] at hr; cases hr
    obtain ⟨e, he, hpe, -⟩ := (h2 ()).1 rfl
    have := MaximalRun.unique hi (coalesced_maximal hw hc he) hp hpe
    subst this
    exact ⟨e.1, NoditSet.mem_iter.2 he, rfl, rfl⟩
  · rintro ⟨k, hk, h1, h2⟩
    have := coalesced_maximal hw hc (NoditSet.mem_iter.1 hk)
    simp only [h1, h2] at this
    exact this

theorem nodup {l : List K} (h : Ascending (I := I) l) : l.Nodup :=
  List.Pairwise.imp_of_mem (fun {a b} ha _ hab hc => by
    subst hc
    have := valid_iff.1 (h.1 a ha)
    exact lt_irrefl _ (hab (start a) (start a) ⟨le_refl _, this⟩ ⟨le_refl _, this⟩)) h.2

theorem eq_of_mem {l : List K} (h : Ascending (I := I) l) {a b : K} (ha : a ∈ l) (hb : b ∈ l) {x : I} (hxa : Mem x a) (hxb : Mem x b) : a = b := by
  by_contra hne
  rcases pairwise_or h.2 ha hb hne with hc | hc
  · exact lt_irrefl x (hc x x hxa hxb)
  · exact lt_irrefl x (hc x x hxb hxa)

/-- the state after the numbers `A` were accepted -/
structure Good (n : Nat) (A : List I) (s : Window I K) : Prop where
  asc : Ascending (I := I) s.seen.iter
  coal : Coalesced s.seen.inner.iter
  size : s.seen.len ≤ n
  pts : ∀ p, (∃ k ∈ s.seen.iter, Mem p k) ↔ p ∈ A ∧ s.low ≤ p
  low : s.low = MIN ∨ ∃ l : List I, l.length = n ∧ l.Nodup ∧ ∀ y ∈ l, y ∈ A ∧ s.low ≤ y

theorem good_new (n : Nat) : Good (I := I) (K := K) n [] ⟨NoditSet.new, MIN⟩ :=
  ⟨by simp [Ascending, NoditSet.new, NoditSet.iter, NoditMap.new, NoditMap.iter],
    by simp [Coalesced, NoditSet.new, NoditMap.new, NoditMap.iter], Nat.zero_le _,
    by simp [NoditSet.new, NoditSet.iter, NoditMap.new, NoditMap.iter], Or.inl rfl⟩

theorem point_valid (x : I) : Valid (I := I) (ofInterval ⟨x, x⟩ : K) :=
  valid_iff.2 (by rw [LawfulInterval.start_of, LawfulInterval.stop_of])

theorem mem_point {x p : I} : Mem p (ofInterval ⟨x, x⟩ : K) ↔ p = x := by
  rw [Mem, LawfulInterval.start_of, LawfulInterval.stop_of]
  exact ⟨fun h => le_antisymm h.2 h.1, fun h => by rw [h]; exact ⟨le_refl _, le_refl _⟩⟩

theorem accept_good {n : Nat} (hn : 1 ≤ n) {A : List I} {s : Window I K} (h : Good n A s) (x : I) :
    ∃ s' b, accept n s x = .ok (s', b) ∧ Good n (if b then A ++ [x] else A) s' ∧ (b = true ↔ s.low ≤ x ∧ x ∉ A) ∧ s.low ≤ s'.low := by
  by_cases hx : x < s.low
  · exact ⟨s, false, by simp only [accept, hx, if_true, pure, Except.pure], by simpa using h, by simp [not_le.2 hx], le_refl _⟩
  have hx' := not_lt.1 hx
  obtain ⟨b, c1, c2⟩ := (C22_set_queries h.asc (⟨x, x⟩ : Interval I) ⟨x, le_refl _, le_refl _⟩ x).2.2.2.1
  rw [h.pts x] at c2
  cases b with
  | true =>
    have := (c2.1 rfl).1
    exact ⟨s, false, by simp only [accept, hx, if_false, c1, bind, Except.bind, if_true, pure, Except.pure], by simpa using h, by simp [this], le_refl _⟩
  | false =>
    have hA : x ∉ A := fun hc => Bool.false_ne_true (c2.2 ⟨hc, hx'⟩)
    obtain ⟨s1, r, e1, -, e3⟩ := (C22_set_updates h.asc (ofInterval ⟨x, x⟩ : K) (point_valid x) (⟨x, x⟩ : Interval I) ⟨x, le_refl _, le_refl _⟩).2.1
    obtain ⟨k', rfl, e4, e5⟩ := e3 (by
      rintro d hd ⟨p, hp, hpx⟩
      rw [mem_point] at hpx
      subst hpx
      exact hA ((h.pts p).1 ⟨d, hd, hp⟩).1)
    have hstep : s.seen.step (SetOp.insertMergeTouching (I := I) (ofInterval ⟨x, x⟩ : K)) = .ok s1 := by
      simp only [NoditSet.step, e1, bind, Except.bind, pure, Except.pure]
    have asc1 : Ascending (I := I) s1.iter := by
      rcases set_step_refines h.asc (SetOp.insertMergeTouching (I := I) (ofInterval ⟨x, x⟩ : K)) with ⟨hb, -⟩ | ⟨-, s2, o, h1, h2, -⟩
      · exact absurd (point_valid x) hb
      · rw [hstep] at h1; cases h1; exact h2
    have coal1 : Coalesced s1.inner.iter := set_coalesced_step h.asc h.coal (op := SetOp.insertMergeTouching (ofInterval ⟨x, x⟩)) trivial hstep
    have pts1 : ∀ p, (∃ k ∈ s1.iter, Mem p k) ↔ p ∈ A ++ [x] ∧ s.low ≤ p := by
      intro p
      rw [List.mem_append, List.mem_singleton]
      constructor
      · rintro ⟨k, hk, hp⟩
        rcases (e5 k).1 hk with ⟨hk, -⟩ | rfl
        · have := (h.pts p).1 ⟨k, hk, hp⟩; exact ⟨Or.inl this.1, this.2⟩
        · rcases (e4 p).1 hp with hp | ⟨d, hd, -, hp⟩
          · rw [mem_point] at hp; subst hp; exact ⟨Or.inr rfl, hx'⟩
          · have := (h.pts p).1 ⟨d, hd, hp⟩; exact ⟨Or.inl this.1, this.2⟩
      · rintro ⟨hp | rfl, hl⟩
        · obtain ⟨d, hd, hp⟩ := (h.pts p).2 ⟨hp, hl⟩
          by_cases ht : Touch d (ofInterval ⟨x, x⟩ : K)
          · exact ⟨k', (e5 k').2 (Or.inr rfl), (e4 p).2 (Or.inr ⟨d, hd, ht, hp⟩)⟩
          · exact ⟨d, (e5 d).2 (Or.inl ⟨hd, ht⟩), hp⟩
        · exact ⟨k', (e5 k').2 (Or.inr rfl), (e4 p).2 (Or.inl (mem_point.2 rfl))⟩
    have low1 : s.low = MIN ∨ ∃ l : List I, l.length = n ∧ l.Nodup ∧ ∀ y ∈ l, y ∈ A ++ [x] ∧ s.low ≤ y := by
      rcases h.low with hl | ⟨l, l1, l2, l3⟩
      · exact Or.inl hl
      · exact Or.inr ⟨l, l1, l2, fun y hy => ⟨List.mem_append_left _ (l3 y hy).1, (l3 y hy).2⟩⟩
    have hacc : accept n s x = (if s1.len ≤ n then pure (⟨s1, s.low⟩, true)
      else
        match s1.first with
        | none => .error .explicit
        | some k => do
          let (seen, _) ← s1.removeOverlapping (I := I) k
          match up (stop k) with
          | none => .error .explicit
          | some w => pure (⟨seen, w⟩, true)) := by
      simp only [accept, hx, if_false, c1, e1, bind, Except.bind, Bool.false_eq_true]
    by_cases hs : s1.len ≤ n
    · exact ⟨⟨s1, s.low⟩, true, by rw [hacc, if_pos hs]; rfl, by simpa using ⟨asc1, coal1, hs, pts1, low1⟩, by simp [hx', hA], le_refl _⟩
    · have L1 := C22_set_len_first_last asc1
      have L0 := C22_set_len_first_last h.asc
      have hle : s1.iter.length ≤ s.seen.iter.length + 1 :=
        (List.subperm_of_subset (nodup asc1) (l₂ := k' :: s.seen.iter) (fun d hd => by
          rcases (e5 d).1 hd with ⟨hd, -⟩ | rfl
          · exact List.mem_cons_of_mem _ hd
          · exact List.mem_cons_self)).length_le
      have hsz := h.size
      rw [L0.1] at hsz
      rw [L1.1] at hs
      have hlen : s1.iter.length = n + 1 := by omega
      obtain ⟨k, hk⟩ : ∃ k, s1.first = some k := by
        unfold NoditSet.first NoditMap.firstKeyValue
        unfold NoditSet.iter NoditMap.iter at hlen
        rw [List.length_map] at hlen
        cases hh : s1.inner.inner with
        | nil => rw [hh] at hlen; simp at hlen
        | cons e t => exact ⟨e.1, rfl⟩
      obtain ⟨k1, k2⟩ := (L1.2.2.2.1 k).1 hk
      have hkv := asc1.1 k k1
      have hkv' := valid_iff.1 hkv
      obtain ⟨s2, out, r1, -, -, r4⟩ := (C22_set_updates asc1 k hkv k hkv).2.2.2.2.2.1
      have r4' : ∀ d, d ∈ s2.iter ↔ d ∈ s1.iter ∧ d ≠ k := fun d => by
        rw [r4 d]
        refine and_congr_right fun hd => ⟨fun ho hc => ?_, fun hne ho => ?_⟩
        · subst hc; exact ho ⟨_, ⟨le_refl _, hkv'⟩, ⟨le_refl _, hkv'⟩⟩
        · obtain ⟨p, hp, hp'⟩ := ho
          exact hne (eq_of_mem asc1 hd k1 hp hp')
      have asc2 : Ascending (I := I) s2.iter := by
        obtain ⟨m2, out2, h1, h2, -⟩ := NoditMap.spec_removeOverlapping (wf_iff.2 asc1) hkv
        simp only [NoditSet.removeOverlapping, h1, bind, Except.bind, pure, Except.pure] at r1
        cases r1
        exact wf_iff.1 h2
      have coal2 : Coalesced s2.inner.iter := coalesced_sub coal1 fun e he => mem_iter.1 ((r4' e.1).1 (mem_iter.2 he)).1
      have hlen2 : s2.iter.length = n := by
        have p1 : (k :: s2.iter).Perm s1.iter := (List.perm_ext_iff_of_nodup (by
            rw [List.nodup_cons]; exact ⟨fun hc => ((r4' k).1 hc).2 rfl, nodup asc2⟩) (nodup asc1)).2 fun d => by
          rw [List.mem_cons, r4']
          constructor
          · rintro (rfl | h)
            · exact k1
            · exact h.1
          · intro hd
            by_cases hdk : d = k
            · exact Or.inl hdk
            · exact Or.inr ⟨hd, hdk⟩
        have := p1.length_eq
        rw [List.length_cons, hlen] at this
        omega
      have habove : ∀ d ∈ s2.iter, stop k < start (I := I) d := fun d hd => by
        have hd' := (r4' d).1 hd
        exact (before_iff hkv' (valid_iff.1 (asc2.1 d hd))).1 (k2 d hd'.1 hd'.2)
      obtain ⟨d0, hd0⟩ : ∃ d, d ∈ s2.iter := List.exists_mem_of_length_pos (by omega)
      cases hu : (up (stop k) : Option I) with
      | none => exact absurd (habove d0 hd0) (not_lt.2 (LawfulPoint.up_none _ hu _))
      | some w =>
        obtain ⟨u1, u2⟩ := LawfulPoint.up_some _ _ hu
        have hkl : s.low ≤ start k := ((pts1 (start k)).1 ⟨k, k1, le_refl _, hkv'⟩).2
        have hlw : s.low ≤ w := by order
        refine ⟨⟨s2, w⟩, true, by rw [hacc, if_neg (by rw [L1.1]; omega)]; simp only [hk, r1, hu, bind, Except.bind, pure, Except.pure], ?_,
          by simp [hx', hA], hlw⟩
        have pts2 : ∀ p, (∃ k ∈ s2.iter, Mem p k) ↔ p ∈ A ++ [x] ∧ w ≤ p := by
          intro p
          constructor
          · rintro ⟨d, hd, hp⟩
            refine ⟨((pts1 p).1 ⟨d, ((r4' d).1 hd).1, hp⟩).1, ?_⟩
            exact le_trans (u2 _ (habove d hd)) hp.1
          · rintro ⟨hp, hw⟩
            obtain ⟨d, hd, hpd⟩ := (pts1 p).2 ⟨hp, le_trans hlw hw⟩
            refine ⟨d, (r4' d).2 ⟨hd, ?_⟩, hpd⟩
            rintro rfl
            exact absurd hpd.2 (not_le.2 (lt_of_lt_of_le u1 hw))
        refine ⟨asc2, coal2, by rw [(C22_set_len_first_last asc2).1, hlen2], pts2, Or.inr ⟨s2.iter.map start, by simpa using hlen2, ?_, ?_⟩⟩
        · rw [List.Nodup, List.pairwise_map]
          refine List.Pairwise.imp_of_mem (fun {a b} ha hb hab heq => ?_) asc2.2
          have hva := valid_iff.1 (asc2.1 a ha)
          have hvb := valid_iff.1 (asc2.1 b hb)
          have := hab _ _ ⟨le_refl _, hva⟩ ⟨le_refl _, hvb⟩
          rw [heq] at this
          exact lt_irrefl _ this
        · intro y hy
          obtain ⟨d, hd, rfl⟩ := List.mem_map.1 hy
          exact (pts2 _).1 ⟨d, hd, le_refl _, valid_iff.1 (asc2.1 d hd)⟩

theorem receive_good {n : Nat} (hn : 1 ≤ n) {A : List I} {s : Window I K} (h : Good n A s) (hA : A.Nodup) (xs : List I) :
    ∃ s' bs, receive n s xs = .ok (s', bs) ∧ bs.length = xs.length ∧ Good n (A ++ accepted xs bs) s' ∧ (A ++ accepted xs bs).Nodup := by
  induction xs generalizing s A with
  | nil => exact ⟨s, [], rfl, rfl, by simpa [accepted] using h, by simpa [accepted] using hA⟩
  | cons x xs ih =>
    obtain ⟨s1, b, a1, a2, a3, -⟩ := accept_good hn h x
    obtain ⟨s2, bs, r1, r2, r3, r4⟩ := ih a2 (by
      cases b with
      | false => simpa using hA
      | true =>
        have hx := (a3.1 rfl).2
        simp only [if_true, List.nodup_append, hA, List.nodup_cons, List.not_mem_nil, not_false_iff, List.nodup_nil, List.mem_singleton, true_and]
        rintro a ha _ rfl rfl
        exact hx ha)
    have : A ++ accepted (x :: xs) (b :: bs) = (if b then A ++ [x] else A) ++ accepted xs bs := by
      cases b <;> simp [accepted]
    exact ⟨s2, b :: bs, by simp only [receive, a1, r1, bind, Except.bind, pure, Except.pure], by simp [r2], by rw [this]; exact r3, by rw [this]; exact r4⟩

/-- **C140**: whatever numbers arrive, the receiver does not panic, keeps at most `n` intervals, and accepts no number twice. -/
theorem C140_never_twice {n : Nat} (hn : 1 ≤ n) (xs : List I) :
    ∃ s bs, receive n (⟨NoditSet.new, MIN⟩ : Window I K) xs = .ok (s, bs) ∧ bs.length = xs.length ∧ s.seen.len ≤ n ∧ (accepted xs bs).Nodup := by
  obtain ⟨s, bs, h1, h2, h3, h4⟩ := receive_good hn (good_new (K := K) n) List.nodup_nil xs
  exact ⟨s, bs, h1, h2, h3.size, by simpa using h4⟩

/-- **C140**: the next number is refused only if it has been accepted before, or `n` larger numbers have been. (In particular nothing new is refused while
less than `n` larger numbers have come.) -/
theorem C140_refused {n : Nat} (hn : 1 ≤ n) {xs : List I} {s : Window I K} {bs : List Bool}
    (h : receive n (⟨NoditSet.new, MIN⟩ : Window I K) xs = .ok (s, bs)) (x : I) :
    ∃ s' b, accept n s x = .ok (s', b) ∧ (b = true ↔ s.low ≤ x ∧ x ∉ accepted xs bs) ∧
      (b = false → x ∈ accepted xs bs ∨ ∃ l : List I, l.length = n ∧ l.Nodup ∧ ∀ y ∈ l, y ∈ accepted xs bs ∧ x < y) := by
  obtain ⟨s0, bs0, h1, -, h3, -⟩ := receive_good hn (good_new (K := K) n) List.nodup_nil xs
  rw [h] at h1; cases h1
  rw [List.nil_append] at h3
  obtain ⟨s', b, a1, -, a3, -⟩ := accept_good hn h3 x
  refine ⟨s', b, a1, a3, ?_⟩
  rintro rfl
  by_cases hx : x ∈ accepted xs bs
  · exact Or.inl hx
  · have hl : x < s.low := by
      by_contra hc
      exact Bool.false_ne_true (a3.2 ⟨not_lt.1 hc, hx⟩)
    rcases h3.low with hm | ⟨l, l1, l2, l3⟩
    · rw [hm] at hl; exact absurd hl (not_lt.2 (LawfulPoint.min_le _))
    · exact Or.inr ⟨l, l1, l2, fun y hy => ⟨(l3 y hy).1, lt_of_lt_of_le hl (l3 y hy).2⟩⟩

/-- **C140**: what is kept are exactly the maximal runs of the accepted numbers from the limit on. -/
theorem C140_kept {n : Nat} (hn : 1 ≤ n) {xs : List I} {s : Window I K} {bs : List Bool}
    (h : receive n (⟨NoditSet.new, MIN⟩ : Window I K) xs = .ok (s, bs)) (i : Interval I) :
    (∃ k ∈ s.seen.iter, start k = i.start ∧ stop k = i.stop) ↔ MaximalRun (fun p => p ∈ accepted xs bs ∧ s.low ≤ p) i := by
  obtain ⟨s0, bs0, h1, -, h3, -⟩ := receive_good hn (good_new (K := K) n) List.nodup_nil xs
  rw [h] at h1; cases h1
  rw [List.nil_append] at h3
  rw [← runs_of_coalesced h3.asc h3.coal i]
  have : (fun p => p ∈ points s.seen) = fun p => p ∈ accepted xs bs ∧ s.low ≤ p := funext fun p => propext (h3.pts p)
  rw [this]

end Nodit.Replay
