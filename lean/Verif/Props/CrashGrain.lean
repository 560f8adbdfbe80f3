import Verif.Props.CrashFuel
import Mathlib.Data.List.Chain
/-!
# Changes become visible one at a time (C116)

Between two consecutive runs of user code in one call, at most one entry of the container is added, removed or replaced.
-/
set_option linter.unusedSectionVars false
namespace Nodit.Spec
/-- the lists differ in at most one place, where one entry is added, removed or replaced.
A client or its specification, models no lines of `/repo`. -/
def AtMostOne {E : Type} (l l' : List E) : Prop :=
  ∃ a x x' b, l = a ++ x ++ b ∧ l' = a ++ x' ++ b ∧ x.length ≤ 1 ∧ x'.length ≤ 1
end Nodit.Spec

namespace Nodit.Crash
open PointType Spec Act

section one
variable {E : Type}

theorem AtMostOne.refl (l : List E) : AtMostOne l l := ⟨l, [], [], [], by simp, by simp, by simp, by simp⟩

theorem AtMostOne.cons {l l' : List E} (e : E) (h : AtMostOne l l') : AtMostOne (e :: l) (e :: l') := by
  obtain ⟨a, x, x', b, rfl, rfl, h1, h2⟩ := h
  exact ⟨e :: a, x, x', b, by simp, by simp, h1, h2⟩

theorem AtMostOne.append_left {l l' : List E} (p : List E) (h : AtMostOne l l') : AtMostOne (p ++ l) (p ++ l') := by
  induction p with
  | nil => exact h
  | cons e p ih => exact AtMostOne.cons e ih

theorem AtMostOne.tail (e : E) (l : List E) : AtMostOne (e :: l) l := ⟨[], [e], [], l, by simp, by simp, by simp, by simp⟩
theorem AtMostOne.added (e : E) (l : List E) : AtMostOne l (e :: l) := ⟨[], [], [e], l, by simp, by simp, by simp, by simp⟩
theorem AtMostOne.replaced (e e' : E) (l : List E) : AtMostOne (e :: l) (e' :: l) :=
  ⟨[], [e], [e'], l, by simp, by simp, by simp, by simp⟩

theorem AtMostOne.length {l l' : List E} (h : AtMostOne l l') : l'.length ≤ l.length + 1 ∧ l.length ≤ l'.length + 1 := by
  obtain ⟨a, x, x', b, rfl, rfl, h1, h2⟩ := h
  simp only [List.length_append]
  omega
end one

section Laws
variable {S T E X α β : Type}

/-- What is watched of a state, and which steps are allowed. -/
structure Watch (S X : Type) where
  view : S → X
  R : X → X → Prop
  refl : ∀ x, R x x

/-- the entries, of which at most one may change in a step -/
abbrev entriesOf (view : S → List E) : Watch S (List E) := ⟨view, AtMostOne, AtMostOne.refl⟩

/-- Starting in a state `s` where the last run of user code saw the entries `r`, with `pre r s`: the runs of user code see
the entries `ts`, in each step at most one entry is changed, also until the program is left; and if it returns `x`, the
entries last seen and the state it leaves satisfy `post x`. -/
def Grain (w : Watch S X) (pre : X → S → Prop) (a : Act S α) (post : α → X → S → Prop) : Prop :=
  ∀ r s, pre r s → ∃ ts : List X, Runs a s ts.length ∧
    (∀ n (h : n < ts.length), w.view (a s (some n)).2.1 = ts[n]) ∧ (r :: ts).IsChain w.R ∧
    w.R (ts.getLastD r) (w.view (a s none).2.1) ∧
    ∀ x, (a s none).1 = .ok x → post x (ts.getLastD r) (a s none).2.1

variable {w : Watch S X} {pre pre' : X → S → Prop}

theorem Grain.weaken {a : Act S α} {post post' : α → X → S → Prop} (h : Grain w pre a post)
    (hp : ∀ r s, pre' r s → pre r s) (hq : ∀ x r s, post x r s → post' x r s) : Grain w pre' a post' := by
  intro r s hs
  obtain ⟨ts, h1, h2, h3, h4, h5⟩ := h r s (hp r s hs)
  exact ⟨ts, h1, h2, h3, h4, fun x hx => hq _ _ _ (h5 x hx)⟩

theorem grain_pure (x : α) (hp : ∀ r s, pre r s → w.R r (w.view s)) :
    Grain w pre (pure x) (fun y r s => pre r s ∧ y = x) := fun r s hs =>
  ⟨[], ⟨by simp, fun _ _ => rfl, rfl, by intro h; cases h⟩, by simp, by simp, hp r s hs, fun y hy => by
    cases hy
    exact ⟨hs, rfl⟩⟩

theorem grain_get (hp : ∀ r s, pre r s → w.R r (w.view s)) :
    Grain w pre get (fun y r s => pre r s ∧ s = y) := fun r s hs =>
  ⟨[], ⟨by simp, fun _ _ => rfl, rfl, by intro h; cases h⟩, by simp, by simp, hp r s hs, fun y hy => by
    cases hy
    exact ⟨hs, rfl⟩⟩

theorem grain_set (s' : S) (hp : ∀ r s, pre r s → w.R r (w.view s')) :
    Grain w pre (Act.set s') (fun _ r s => w.R r (w.view s)) := fun r s hs =>
  ⟨[], ⟨by simp, fun _ _ => rfl, rfl, by intro h; cases h⟩, by simp, by simp, hp r s hs, fun y hy => hp r s hs⟩

theorem grain_res (x : Res α) (hp : ∀ r s, pre r s → w.R r (w.view s)) :
    Grain w pre (res x) (fun y r s => pre r s ∧ x = .ok y) := fun r s hs => by
  refine ⟨[], (?_ : Runs _ _ 0), by simp, by simp, ?_, ?_⟩
  · exact ⟨by simp, fun n _ => by cases x <;> rfl, by cases x <;> rfl, by cases x <;> (intro h; cases h)⟩
  · cases x <;> exact hp r s hs
  · cases x with
    | error e => intro y hy; cases hy
    | ok a =>
      intro y hy
      cases hy
      exact ⟨hs, rfl⟩

theorem grain_user (hp : ∀ r s, pre r s → w.R r (w.view s)) :
    Grain w pre user (fun _ r s => r = w.view s ∧ ∃ r', pre r' s) := fun r s hs => by
  refine ⟨[w.view s], (?_ : Runs _ _ 1), ?_, ?_, ?_, ?_⟩
  · refine ⟨fun n hn => ?_, fun n hn => ?_, rfl, by intro h; cases h⟩
    · obtain rfl : n = 0 := by omega
      rfl
    · obtain ⟨k, rfl⟩ : ∃ k, n = k + 1 := ⟨n - 1, by omega⟩
      rfl
  · intro n hn
    obtain rfl : n = 0 := by simpa using hn
    rfl
  · simpa using hp r s hs
  · exact w.refl _
  · intro x hx
    exact ⟨rfl, r, hs⟩

theorem getLastD_append' (r : E) (l m : List E) : (l ++ m).getLastD r = m.getLastD (l.getLastD r) := by
  cases m with
  | nil => simp
  | cons e m => simp [List.getLastD_eq_getLast?, List.getLast?_append]

theorem chain_append {R : E → E → Prop} {r : E} {l m : List E} (h1 : (r :: l).IsChain R)
    (h2 : (l.getLastD r :: m).IsChain R) : (r :: (l ++ m)).IsChain R := by
  induction l generalizing r with
  | nil => simpa using h2
  | cons e l ih =>
    rw [List.isChain_cons_cons] at h1
    rw [List.cons_append, List.isChain_cons_cons]
    refine ⟨h1.1, ih h1.2 ?_⟩
    rwa [List.getLastD_cons] at h2

theorem Grain.bind {mid : α → X → S → Prop} {post : β → X → S → Prop} {a : Act S α} {f : α → Act S β}
    (ha : Grain w pre a mid) (hf : ∀ x, Grain w (mid x) (f x) post) : Grain w pre (a >>= f) post := by
  intro r s hs
  obtain ⟨ts, ⟨h1, h2, h3, h4⟩, hv, hc, hl, hm⟩ := ha r s hs
  have herr : ∀ n < ts.length, ∃ k, a s (some n) = (.error .user, (a s (some n)).2.1, k) := by
    intro n hn
    have := h1 n hn
    rcases hq : a s (some n) with ⟨q, t, k⟩
    rw [hq] at this
    dsimp only at this
    subst this
    exact ⟨k, rfl⟩
  rcases hr : a s none with ⟨q, s', n'⟩
  rw [hr] at h2 h3 h4 hl hm
  dsimp only at h2 h3 h4 hl hm
  subst h3
  cases q with
  | error e =>
    refine ⟨ts, ⟨fun n hn => ?_, fun n hn => ?_, ?_, ?_⟩, fun n hn => ?_, hc, ?_, fun x hx => ?_⟩
    · obtain ⟨k, hk⟩ := herr n hn
      rw [bind_eq, hk]
    · rw [bind_eq, bind_eq, h2 n hn, hr]
    · rw [bind_eq, hr]
    · rw [bind_eq, hr]
      dsimp only
      intro h
      cases h
      exact h4 rfl
    · obtain ⟨k, hk⟩ := herr n hn
      rw [bind_eq, hk]
      exact hv n hn
    · rw [bind_eq, hr]
      exact hl
    · rw [bind_eq, hr] at hx
      cases hx
  | ok x =>
    obtain ⟨us, ⟨g1, g2, g3, g4⟩, gv, gc, gl, gm⟩ := hf x _ s' (hm x rfl)
    refine ⟨ts ++ us, ⟨fun n hn => ?_, fun n hn => ?_, ?_, ?_⟩, fun n hn => ?_, chain_append hc gc, ?_, fun y hy => ?_⟩
    · rw [List.length_append] at hn
      by_cases hlt : n < ts.length
      · obtain ⟨k, hk⟩ := herr n hlt
        rw [bind_eq, hk]
      · rw [bind_eq, h2 n (by omega)]
        exact g1 _ (by omega)
    · rw [List.length_append] at hn ⊢
      rw [bind_eq, bind_eq, h2 n (by omega), hr]
      dsimp only
      rw [g2 (n - ts.length) (by omega), Nat.sub_sub]
    · rw [bind_eq, hr]
      exact g3
    · rw [bind_eq, hr]
      exact g4
    · by_cases hlt : n < ts.length
      · obtain ⟨k, hk⟩ := herr n hlt
        rw [bind_eq, hk, List.getElem_append_left hlt]
        exact hv n hlt
      · rw [List.length_append] at hn
        rw [bind_eq, h2 n (by omega), List.getElem_append_right (by omega)]
        exact gv _ (by omega)
    · rw [bind_eq, hr, getLastD_append']
      exact gl
    · rw [bind_eq, hr] at hy ⊢
      rw [getLastD_append']
      exact gm y hy

/-- the same program on a part of a larger state with the same entries -/
theorem Grain.lift {view' : T → X} {pre' : X → T → Prop} {a : T → Act S α} {post : α → X → S → Prop}
    (down : T → S) (up : T → S → T) (ha : ∀ t, Grain w pre (a t) post)
    (hp : ∀ r t, pre' r t → pre r (down t)) (hv : ∀ t s, view' (up t s) = w.view s) :
    Grain ⟨view', w.R, w.refl⟩ pre'
      (fun t n => ((a t (down t) n).1, up t (a t (down t) n).2.1, (a t (down t) n).2.2) : Act T α)
      (fun x r t => ∃ t' s, t = up t' s ∧ post x r s) := fun r t ht => by
  obtain ⟨ts, ⟨h1, h2, h3, h4⟩, hn, hc, hl, hm⟩ := ha t r (down t) (hp r t ht)
  refine ⟨ts, ⟨h1, fun n hn => ?_, h3, h4⟩, fun n h => ?_, hc, ?_, fun x hx => ⟨_, _, rfl, hm x hx⟩⟩
  · dsimp only
    rw [h2 n hn]
  · dsimp only
    rw [hv]
    exact hn n h
  · dsimp only
    rw [hv]
    exact hl

/-- at most one change since user code last ran, before and after -/
def Single (w : Watch S X) (a : Act S α) : Prop :=
  Grain w (fun r s => w.R r (w.view s)) a (fun _ r s => w.R r (w.view s))

/-- at most one change since user code last ran if there was none before -/
def Marked (w : Watch S X) (a : Act S α) : Prop :=
  Grain w (fun r s => r = w.view s) a (fun _ r s => w.R r (w.view s))

theorem single_pure (x : α) : Single w (pure x : Act S α) :=
  (grain_pure x fun _ _ h => h).weaken (fun _ _ h => h) fun _ _ _ h => h.1

theorem single_res (x : Res α) : Single w (res x : Act S α) :=
  (grain_res x fun _ _ h => h).weaken (fun _ _ h => h) fun _ _ _ h => h.1

theorem single_get : Single w (get : Act S S) :=
  (grain_get fun _ _ h => h).weaken (fun _ _ h => h) fun _ _ _ h => h.1

theorem single_user : Single w (user : Act S Unit) :=
  (grain_user fun _ _ h => h).weaken (fun _ _ h => h) fun _ _ s h => by rw [h.1]; exact w.refl _

theorem Single.bind {a : Act S α} {f : α → Act S β} (ha : Single w a) (hf : ∀ x, Single w (f x)) :
    Single w (a >>= f) := Grain.bind ha hf

theorem Single.marked {a : Act S α} (ha : Single w a) : Marked w a :=
  ha.weaken (fun _ _ h => by rw [h]; exact w.refl _) fun _ _ _ h => h

/-- after a run of user code there is room for one change -/
theorem single_user_then {f : Unit → Act S β} (hf : Marked w (f ())) : Single w (user >>= f) :=
  Grain.bind (grain_user fun _ _ h => h) fun _ => hf.weaken (fun _ _ h => h.1) fun _ _ _ h => h

theorem marked_res_then {x : Res α} {f : α → Act S β} (hf : ∀ a, x = .ok a → Marked w (f a)) :
    Marked w (res x >>= f) :=
  Grain.bind (grain_res x fun _ _ h => by rw [h]; exact w.refl _) fun a r s hs => hf a hs.2 r s hs.1

theorem marked_get_set {g : S → S} {f : S → Unit → Act S β} (hg : ∀ s, w.R (w.view s) (w.view (g s)))
    (hf : ∀ s, Single w (f s ())) : Marked w (get >>= fun s => Act.set (g s) >>= f s) := by
  refine Grain.bind (grain_get fun _ _ h => by rw [h]; exact w.refl _) fun s => ?_
  refine Grain.bind (grain_set (g s) ?_) fun _ => hf s
  rintro r s' ⟨rfl, rfl⟩
  exact hg _

theorem getLastD_map' {E' : Type} (g : E → E') (r : E) (l : List E) : (l.map g).getLastD (g r) = g (l.getLastD r) := by
  induction l generalizing r with
  | nil => rfl
  | cons e l ih => rw [List.map_cons, List.getLastD_cons, List.getLastD_cons]; exact ih e

/-- a program on a part of a larger state, whose other part stays as it is -/
theorem Marked.lift {Y : Type} {w' : Watch T Y} {a : Act S α} (down : T → S) (up : T → S → T) (g : T → X → Y)
    (ha : Marked w a) (hg : ∀ t x y, w.R x y → w'.R (g t x) (g t y)) (h0 : ∀ t, w'.view t = g t (w.view (down t)))
    (hv : ∀ t s, w'.view (up t s) = g t (w.view s)) :
    Marked w' (fun t n => ((a (down t) n).1, up t (a (down t) n).2.1, (a (down t) n).2.2) : Act T α) := by
  rintro r t rfl
  obtain ⟨ts, ⟨h1, h2, h3, h4⟩, hn, hc, hl, hm⟩ := ha _ (down t) rfl
  have hlast : ∀ x : X, w.R (ts.getLastD (w.view (down t))) x →
      w'.R ((ts.map (g t)).getLastD (w'.view t)) (g t x) := by
    intro x hx
    rw [h0, getLastD_map']
    exact hg _ _ _ hx
  refine ⟨ts.map (g t), ⟨?_, ?_, h3, h4⟩, ?_, ?_, ?_, ?_⟩
  · rw [List.length_map]
    exact h1
  · rw [List.length_map]
    intro n hn
    dsimp only
    rw [h2 n hn]
  · intro n h
    rw [List.length_map] at h
    dsimp only
    rw [hv, hn n h, List.getElem_map]
  · have := (List.isChain_map (R := w'.R) (g t)).2 (hc.imp fun x y => hg t x y)
    rwa [List.map_cons, ← h0] at this
  · dsimp only
    rw [hv]
    exact hlast _ hl
  · intro x _
    dsimp only
    rw [hv]
    exact hlast _ hl

/-- what it means for the call -/
theorem Single.spec {a : Act S α} (h : Single w a) (s : S) (n : Nat) :
    w.R (w.view (a s (some n)).2.1) (w.view (a s (some (n + 1))).2.1) := by
  obtain ⟨ts, ⟨h1, h2, h3, h4⟩, hv, hc, hl, -⟩ := h (w.view s) s (w.refl _)
  by_cases hlt : n + 1 < ts.length
  · rw [hv n (by omega), hv (n + 1) hlt]
    exact List.isChain_iff_getElem.1 hc (n + 1) (by simpa using hlt)
  · by_cases hn : n < ts.length
    · rw [hv n hn, h2 (n + 1) (by omega)]
      have : ts.getLastD (w.view s) = ts[n] := by
        rw [List.getLastD_eq_getLast?, List.getLast?_eq_getElem?]
        have : ts.length - 1 = n := by omega
        rw [this, List.getElem?_eq_getElem hn]
        rfl
      rw [← this]
      exact hl
    · rw [h2 n (by omega), h2 (n + 1) (by omega)]
      exact w.refl _
end Laws

variable {I K Q V D : Type} [PointType I] [IntervalType I K] [IntervalType I Q]

theorem atMostOne_remove (comp : K → Ordering) (l : List (K × V)) : AtMostOne l (BTree.remove comp l) := by
  induction l with
  | nil => exact AtMostOne.refl _
  | cons e l ih =>
    unfold BTree.remove
    split
    · exact AtMostOne.cons e ih
    · exact AtMostOne.tail e l
    · exact AtMostOne.refl _

theorem atMostOne_insert (comp : K → Ordering) (k : K) (v : V) (l : List (K × V)) :
    AtMostOne l (BTree.insert comp k v l) := by
  induction l with
  | nil => exact AtMostOne.added _ _
  | cons e l ih =>
    unfold BTree.insert
    split
    · exact AtMostOne.cons e ih
    · exact AtMostOne.replaced _ _ _
    · exact AtMostOne.added _ _

theorem atMostOne_modify (comp : K → Ordering) (f : K → V → V) (l : List (K × V)) :
    AtMostOne l (BTree.modify comp f l) := by
  induction l with
  | nil => exact AtMostOne.refl _
  | cons e l ih =>
    unfold BTree.modify
    split
    · exact AtMostOne.cons e ih
    · exact AtMostOne.replaced _ _ _
    · exact AtMostOne.refl _

theorem atMostOne_removeCurrent (c : BTree.Cursor K V) : AtMostOne c.entries c.removeCurrent.2.entries := by
  obtain ⟨b, a⟩ := c
  cases a with
  | nil => exact AtMostOne.refl _
  | cons e l => exact AtMostOne.append_left b (AtMostOne.tail e l)

theorem atMostOne_insertBefore (c : BTree.Cursor K V) (k : K) (v : V) : AtMostOne c.entries (c.insertBefore k v).entries := by
  obtain ⟨b, a⟩ := c
  simp only [BTree.Cursor.entries, BTree.Cursor.insertBefore, List.append_assoc]
  exact AtMostOne.append_left b (AtMostOne.added _ a)

theorem entries_lowerBound (comp : K → Ordering) (l : List (K × V)) : (BTree.lowerBound comp l).entries = l :=
  List.takeWhile_append_dropWhile

/-- the entries of a map -/
abbrev ents (m : NoditMap K V) : List (K × V) := m.inner

theorem single_withCursor {α : Type} (comp : K → Ordering) {body : Nat → Act (BTree.Cursor K V) α}
    (h : ∀ n, Single (entriesOf BTree.Cursor.entries) (body n)) : Single (entriesOf ents) (withCursor (BTree.lowerBound comp) body) := by
  refine (Grain.lift (T := NoditMap K V) (w := entriesOf BTree.Cursor.entries) (view' := ents) (pre' := fun r m => AtMostOne r (ents m))
    (a := fun m => body ((BTree.lowerBound comp m.inner).after.length + 1)) (fun m => BTree.lowerBound comp m.inner)
    (fun _ c => ⟨c.entries⟩) (fun _ => h _) ?_ ?_).weaken (fun _ _ h => h) ?_
  · intro r t ht
    show AtMostOne r (BTree.lowerBound comp t.inner).entries
    rw [entries_lowerBound]
    exact ht
  · intro t s
    rfl
  · rintro x r t ⟨t', s, rfl, hs⟩
    exact hs

theorem single_removeLoop (q : Q) (n : Nat) :
    Single (entriesOf BTree.Cursor.entries) (removeLoop (K := K) (V := V) (I := I) q n) := by
  induction n with
  | zero => exact single_pure _
  | succ n ih =>
    unfold removeLoop
    refine Grain.bind (grain_get fun _ _ h => h) fun c => ?_
    split
    · exact (single_pure _).weaken (fun _ _ h => h.1) fun _ _ _ h => h
    · refine Grain.bind (grain_user fun _ _ h => h.1) fun _ => ?_
      refine Grain.bind (grain_res _ fun _ _ h => by rw [h.1]; exact AtMostOne.refl _) fun b => ?_
      split
      · refine Grain.bind (grain_set _ ?_) fun _ => (single_res _).bind fun _ => ih.bind fun _ => single_pure _
        rintro r s ⟨⟨rfl, r', -, rfl⟩, -⟩
        exact atMostOne_removeCurrent _
      · exact (single_pure _).weaken (fun _ _ h => by rw [h.1.1]; exact AtMostOne.refl _) fun _ _ _ h => h

theorem single_removeOverlapping (q : Q) : Single (entriesOf ents) (removeOverlapping (K := K) (V := V) (I := I) q) :=
  single_user.bind fun _ => (single_res _).bind fun _ => single_user.bind fun _ =>
    single_withCursor _ (single_removeLoop q)

theorem single_putBack (value : V) (p : Option (Interval I)) :
    Single (entriesOf BTree.Cursor.entries) (putBack (K := K) value p) := by
  cases p with
  | none => exact single_pure _
  | some p =>
    refine single_user_then ?_
    refine Grain.bind (grain_get fun _ _ h => by rw [h]; exact AtMostOne.refl _) fun s => grain_set _ ?_
    rintro r s' ⟨rfl, rfl⟩
    exact atMostOne_insertBefore _ _ _

theorem single_cutLoop (q : Q) (n : Nat) : Single (entriesOf BTree.Cursor.entries) (cutLoop (K := K) (V := V) (I := I) q n) := by
  induction n with
  | zero => exact single_pure _
  | succ n ih =>
    unfold cutLoop
    refine Grain.bind (grain_get fun _ _ h => h) fun c => ?_
    split
    · exact (single_pure _).weaken (fun _ _ h => h.1) fun _ _ _ h => h
    · refine Grain.bind (grain_user fun _ _ h => h.1) fun _ => ?_
      refine Grain.bind (grain_res _ fun _ _ h => by rw [h.1]; exact AtMostOne.refl _) fun b => ?_
      split
      · exact (single_pure _).weaken (fun _ _ h => by rw [h.1.1]; exact AtMostOne.refl _) fun _ _ _ h => h
      · refine Grain.bind (grain_set _ ?_) fun _ => (single_res _).bind fun _ => single_user.bind fun _ =>
          (single_res _).bind fun _ => (single_putBack _ _).bind fun _ => (single_putBack _ _).bind fun _ =>
          (single_res _).bind fun _ => single_user.bind fun _ => ih.bind fun _ => single_pure _
        rintro r s ⟨⟨rfl, r', -, rfl⟩, -⟩
        exact atMostOne_removeCurrent _

theorem single_cut (q : Q) : Single (entriesOf ents) (cut (K := K) (V := V) (I := I) q) :=
  single_user.bind fun _ => (single_res _).bind fun _ => single_user.bind fun _ => single_withCursor _ (single_cutLoop q)

theorem single_insertUnchecked (k : K) (v : V) : Single (entriesOf ents) (insertUnchecked (I := I) k v) := by
  refine single_user_then ?_
  refine Grain.bind (grain_get fun _ _ h => by rw [h]; exact AtMostOne.refl _) fun s => grain_set _ ?_
  rintro r s' ⟨rfl, rfl⟩
  exact atMostOne_insert _ _ _ _

theorem single_insertStrict (k : K) (v : V) : Single (entriesOf ents) (insertStrict (I := I) k v) := by
  refine single_user.bind fun _ => (single_res _).bind fun _ => single_user.bind fun _ => single_get.bind fun m =>
    (single_res _).bind fun b => ?_
  split
  · exact single_pure _
  · exact (single_insertUnchecked k v).bind fun _ => single_pure _

theorem single_removeBy (comp : K → Ordering) : Single (entriesOf ents) (removeBy (V := V) comp) :=
  single_user_then (marked_get_set (g := fun m : NoditMap K V => ⟨BTree.remove comp m.inner⟩) (f := fun _ _ => user)
    (fun m => atMostOne_remove comp m.inner) fun _ => single_user)

theorem single_insertMergeWithComps (k : K) (v : V) (getStart getEnd : NoditMap K V → V → Option K)
    {removeStart removeEnd : V → Act (NoditMap K V) Unit} (h1 : ∀ v, Single (entriesOf ents) (removeStart v))
    (h2 : ∀ v, Single (entriesOf ents) (removeEnd v)) :
    Single (entriesOf ents) (insertMergeWithComps (I := I) k v getStart getEnd removeStart removeEnd) :=
  single_user.bind fun _ => (single_res _).bind fun _ => single_user.bind fun _ => single_get.bind fun _ =>
    (single_removeOverlapping k).bind fun _ => single_user.bind fun _ => (h1 v).bind fun _ =>
    (h2 v).bind fun _ => (single_insertUnchecked _ v).bind fun _ => single_pure _

theorem single_insertMergeTouching (k : K) (v : V) : Single (entriesOf ents) (insertMergeTouching (I := I) k v) := by
  refine single_user.bind fun _ => (single_res _).bind fun _ => single_user.bind fun _ => single_get.bind fun m =>
    (single_res _).bind fun b => ?_
  split
  · exact single_pure _
  · exact (single_insertMergeWithComps k v _ _ (fun _ => single_removeBy _) (fun _ => single_removeBy _)).bind
      fun _ => single_pure _

theorem single_insertMergeTouchingIfValuesEqual [BEq V] (k : K) (v : V) :
    Single (entriesOf ents) (insertMergeTouchingIfValuesEqual (I := I) k v) := by
  refine single_user.bind fun _ => (single_res _).bind fun _ => single_user.bind fun _ => single_get.bind fun m =>
    (single_res _).bind fun b => ?_
  split
  · exact single_pure _
  · refine (single_insertMergeWithComps k v _ _ (fun _ => ?_) (fun _ => ?_)).bind fun _ => single_pure _
    all_goals
      refine single_user.bind fun _ => single_get.bind fun _ => ?_
      split
      · exact single_removeBy _
      · exact single_pure _

theorem single_insertMergeOverlapping (k : K) (v : V) : Single (entriesOf ents) (insertMergeOverlapping (I := I) k v) :=
  single_user.bind fun _ => (single_res _).bind fun _ =>
    single_insertMergeWithComps k v _ _ (fun _ => single_pure _) (fun _ => single_pure _)

theorem single_insertMergeTouchingOrOverlapping (k : K) (v : V) :
    Single (entriesOf ents) (insertMergeTouchingOrOverlapping (I := I) k v) :=
  single_user.bind fun _ => (single_res _).bind fun _ =>
    single_insertMergeWithComps k v _ _ (fun _ => single_removeBy _) (fun _ => single_removeBy _)

theorem single_insertOverwrite (k : K) (v : V) : Single (entriesOf ents) (insertOverwrite (I := I) k v) :=
  single_user.bind fun _ => (single_res _).bind fun _ => (single_cut k).bind fun _ =>
    (single_insertUnchecked k v).bind fun _ => single_pure _

/-- a call whose change of the container is a single one -/
theorem single_atomic {S O : Type} {E : Type} {view : S → List E} {f : S → Res (S × O)}
    (hf : ∀ s s' o, f s = .ok (s', o) → AtMostOne (view s) (view s')) :
    Single (entriesOf view) (do user; let m ← get; let (m', o) ← res (f m); Act.set m'; pure o) := by
  refine single_user_then ?_
  refine Grain.bind (grain_get fun _ _ h => by rw [h]; exact AtMostOne.refl _) fun s => ?_
  refine Grain.bind (grain_res _ fun _ _ h => by rw [h.1]; exact AtMostOne.refl _) fun x => ?_
  refine Grain.bind (grain_set _ ?_) fun _ => single_pure _
  rintro r s' ⟨⟨rfl, rfl⟩, h⟩
  exact hf _ x.1 x.2 h

theorem single_step [BEq V] (op : Op I K V) (h1 : ∀ q f, op ≠ .overlappingMut q f) (h2 : ∀ f, op ≠ .iterMut f) :
    Single (entriesOf ents) (step op) := by
  cases op
  case insertStrict k v => exact (single_insertStrict k v).bind fun _ => single_pure _
  case insertMergeTouching k v => exact (single_insertMergeTouching k v).bind fun _ => single_pure _
  case insertMergeTouchingIfValuesEqual k v =>
    exact (single_insertMergeTouchingIfValuesEqual k v).bind fun _ => single_pure _
  case insertMergeOverlapping k v => exact (single_insertMergeOverlapping k v).bind fun _ => single_pure _
  case insertMergeTouchingOrOverlapping k v =>
    exact (single_insertMergeTouchingOrOverlapping k v).bind fun _ => single_pure _
  case insertOverwrite k v => exact (single_insertOverwrite k v).bind fun _ => single_pure _
  case cut q => exact (single_cut q).bind fun _ => single_pure _
  case removeOverlapping q => exact (single_removeOverlapping q).bind fun _ => single_pure _
  case overlappingMut q f => exact absurd rfl (h1 q f)
  case iterMut f => exact absurd rfl (h2 f)
  case getAtPointMut p f =>
    refine single_atomic fun s s' o h => ?_
    simp only [NoditMap.step] at h
    obtain ⟨rfl, -⟩ := Prod.mk.inj (Except.ok.inj h)
    exact atMostOne_modify _ _ _
  all_goals
    refine single_atomic fun s s' o h => ?_
    have : s' = s := by
      simp only [NoditMap.step, bind, Except.bind, pure, Except.pure] at h
      grind
    rw [this]
    exact AtMostOne.refl _

theorem setStep_state (op : SetCall I K) (s : NoditSet K) (n : Option Nat) :
    (setStep op s n).2.1.inner = (step op.toMap s.inner n).2.1 := rfl

section gq
variable [DecidableEq D]

/-- the entries of a `Gqdit` -/
abbrev gents (g : Gqdit K D) : List (K × Finset D) := g.inner.inner

theorem single_inner {α : Type} {x : Act (NoditMap K (Finset D)) α} (h : Single (entriesOf ents) x) : Single (entriesOf gents) (inner x) := by
  refine (Grain.lift (T := Gqdit K D) (w := entriesOf ents) (view' := gents) (pre' := fun r m => AtMostOne r (gents m))
    (a := fun _ => x) (fun g => g.inner) (fun _ m => ⟨m⟩) (fun _ => h) (fun _ _ h => h) (fun _ _ => rfl)).weaken
    (fun _ _ h => h) ?_
  rintro x r t ⟨t', s, rfl, hs⟩
  exact hs

theorem single_putBackIds (f : Finset D → Finset D) (l : List (K × Finset D)) :
    Single (entriesOf ents) (putBackIds (I := I) f l) := by
  induction l with
  | nil => exact single_pure _
  | cons e rest ih =>
    obtain ⟨k, ids⟩ := e
    refine single_user.bind fun _ => (single_insertMergeTouchingIfValuesEqual k (f ids)).bind fun r => ?_
    cases r with
    | ok _ => exact ih
    | error _ => exact single_res _

theorem single_gqStep (op : GqOp I K D) : Single (entriesOf gents) (gqStep op) := by
  cases op
  case insert ids k =>
    refine single_user.bind fun _ => (single_res _).bind fun _ => ?_
    split
    · exact single_pure _
    · exact single_inner ((single_cut k).bind fun _ => single_putBackIds _ _)
  case cutWithIdentifiers ids q =>
    refine single_user.bind fun _ => (single_res _).bind fun _ => ?_
    split
    · exact single_pure _
    · exact single_inner ((single_cut q).bind fun _ => single_putBackIds _ _)
  case cutAllIdentifiers q =>
    exact single_user.bind fun _ => (single_res _).bind fun _ =>
      single_inner ((single_cut q).bind fun _ => single_putBackIds _ _)

theorem single_insertAllIds (l : List (K × Finset D)) : Single (entriesOf gents) (insertAllIds (I := I) l) := by
  induction l with
  | nil => exact single_pure _
  | cons e rest ih => exact (single_gqStep (.insert e.2 e.1)).bind fun _ => ih

/-- the entries of `self` and of `other`; in a step at most one entry of one of the two may change -/
abbrev bothOf : Watch (Gqdit K D × Gqdit K D) (List (K × Finset D) × List (K × Finset D)) :=
  ⟨fun g => (gents g.1, gents g.2), fun x y => AtMostOne x.1 y.1 ∧ x.2 = y.2 ∨ x.1 = y.1 ∧ AtMostOne x.2 y.2,
    fun _ => .inl ⟨AtMostOne.refl _, rfl⟩⟩

theorem marked_onOther {α : Type} {x : Act (Gqdit K D) α} (h : Marked (entriesOf gents) x) : Marked bothOf (onOther x) :=
  h.lift (w' := bothOf) (fun g => g.2) (fun g m => (g.1, m)) (fun g l => (gents g.1, l))
    (fun _ _ _ h => .inr ⟨rfl, h⟩) (fun _ => rfl) (fun _ _ => rfl)

theorem marked_onSelf {α : Type} {x : Act (Gqdit K D) α} (h : Marked (entriesOf gents) x) : Marked bothOf (onSelf x) :=
  h.lift (w' := bothOf) (fun g => g.1) (fun g m => (m, g.2)) (fun g l => (l, gents g.2))
    (fun _ _ _ h => .inl ⟨h, rfl⟩) (fun _ => rfl) (fun _ _ => rfl)

theorem act_bind_assoc {S α β γ : Type} (a : Act S α) (f : α → Act S β) (g : β → Act S γ) :
    (a >>= f) >>= g = a >>= fun x => f x >>= g := by
  funext s n
  simp only [bind_eq]
  rcases a s n with ⟨r, t, k⟩
  cases r <;> rfl

theorem onSelf_user_bind {α : Type} (f : Unit → Act (Gqdit K D) α) :
    onSelf (user >>= f) = (user >>= fun x => onSelf (f x)) := by
  funext s n
  cases n with
  | none => rfl
  | some n => cases n <;> rfl

theorem single_onSelf_insertAllIds (l : List (K × Finset D)) : Single bothOf (onSelf (insertAllIds (I := I) l)) := by
  cases l with
  | nil => exact single_pure (w := bothOf) ()
  | cons e rest =>
    have : insertAllIds (I := I) (e :: rest) = user >>= fun _ =>
        (res (invalidIntervalPanic e.1) >>= fun _ =>
          if e.2 = ∅ then pure () else inner do
            let out ← cut e.1
            putBackIds (fun ids => ids ∪ e.2) out) >>= fun _ => insertAllIds rest := by
      rw [← act_bind_assoc]
      rfl
    rw [this, onSelf_user_bind]
    refine single_user_then (marked_onSelf (Single.marked ?_))
    refine Single.bind ((single_res _).bind fun _ => ?_) fun _ => single_insertAllIds rest
    split
    · exact single_pure _
    · exact single_inner ((single_cut e.1).bind fun _ => single_putBackIds _ _)

theorem single_append : Single bothOf (append (I := I) (K := K) (D := D)) := by
  refine single_user_then (marked_res_then fun full _ => ?_)
  exact Grain.bind (marked_onOther (single_inner (single_removeOverlapping _)).marked) fun l =>
    single_onSelf_insertAllIds l
end gq

/-- the stores of a `ZosditMap` -/
abbrev zents (m : ZosditMap K V) : List (K × List V) := m.inner

theorem single_zPutBefore (store : List V) (p : Option (Interval I)) :
    Single (entriesOf fun s : ZCur K V => s.2.entries) (zPutBefore (K := K) store p) := by
  cases p with
  | none => exact single_pure _
  | some p =>
    refine single_user_then ?_
    refine marked_get_set (g := fun s : ZCur K V => (s.1, s.2.insertBefore (ofInterval p) store))
      (f := fun _ _ => get >>= fun s => Act.set (s.1 + store.length, s.2)) (fun s => atMostOne_insertBefore _ _ _) fun _ => ?_
    refine Grain.bind (grain_get fun _ _ h => h) fun s => grain_set _ ?_
    rintro r s' ⟨h, rfl⟩
    exact h

theorem single_zPutAfter (store : List V) (p : Option (Interval I)) :
    Single (entriesOf fun s : ZCur K V => s.2.entries) (zPutAfter (K := K) store p) := by
  cases p with
  | none => exact single_pure _
  | some p =>
    refine Grain.bind (grain_get fun _ _ h => h) fun s => Grain.bind (grain_set _ ?_) fun _ => single_user_then ?_
    · rintro r s' ⟨h, rfl⟩
      exact h
    · refine Grain.bind (grain_get fun _ _ h => by rw [h]; exact AtMostOne.refl _) fun s => grain_set _ ?_
      rintro r s' ⟨rfl, rfl⟩
      exact atMostOne_insertBefore _ _ _

theorem single_zCutLoop (q : Q) (n : Nat) :
    Single (entriesOf fun s : ZCur K V => s.2.entries) (zCutLoop (K := K) (V := V) (I := I) q n) := by
  induction n with
  | zero => exact single_pure _
  | succ n ih =>
    unfold zCutLoop
    refine Grain.bind (grain_get fun _ _ h => h) fun c => ?_
    split
    · exact (single_pure _).weaken (fun _ _ h => h.1) fun _ _ _ h => h
    · refine Grain.bind (grain_user fun _ _ h => h.1) fun _ => ?_
      refine Grain.bind (grain_res _ fun _ _ h => by rw [h.1]; exact AtMostOne.refl _) fun b => ?_
      split
      · exact (single_pure _).weaken (fun _ _ h => by rw [h.1.1]; exact AtMostOne.refl _) fun _ _ _ h => h
      · refine Grain.bind (grain_set _ ?_) fun _ => (single_res _).bind fun _ => single_user.bind fun _ =>
          (single_res _).bind fun _ => (single_zPutBefore _ _).bind fun _ => (single_zPutAfter _ _).bind fun _ => ?_
        · rintro r s ⟨⟨rfl, r', -, rfl⟩, -⟩
          exact atMostOne_removeCurrent _
        · refine Grain.bind (grain_get fun _ _ h => h) fun s => ?_
          split
          · exact (single_res _).weaken (fun _ _ h => h.1) fun _ _ _ h => h
          · refine Grain.bind (grain_set _ ?_) fun _ => single_user.bind fun _ => (single_res _).bind fun _ =>
              ih.bind fun _ => single_pure _
            rintro r s' ⟨h, rfl⟩
            exact h

theorem entries_upperBound (comp : K → Ordering) (l : List (K × V)) : (BTree.upperBound comp l).entries = l := by
  unfold BTree.upperBound BTree.Cursor.entries
  dsimp only
  split
  · rename_i e he
    have := List.dropLast_append_getLast? e he
    rw [← List.singleton_append, ← List.append_assoc, this]
    exact List.takeWhile_append_dropWhile
  · simp

theorem entries_moveNext (c : BTree.Cursor K V) : c.moveNext.entries = c.entries := by
  obtain ⟨b, a⟩ := c
  cases a <;> simp [BTree.Cursor.moveNext, BTree.Cursor.entries]

theorem entries_movePrev (c : BTree.Cursor K V) : c.movePrev.entries = c.entries := by
  obtain ⟨b, a⟩ := c
  unfold BTree.Cursor.movePrev BTree.Cursor.entries
  dsimp only
  split
  · rename_i e he
    have := List.dropLast_append_getLast? e he
    rw [← List.singleton_append, ← List.append_assoc, this]
  · rename_i he
    rw [List.getLast?_eq_none_iff] at he
    simp [he]

theorem single_zCut (q : Q) : Single (entriesOf zents) (zCut (K := K) (V := V) (I := I) q) := by
  refine single_user.bind fun _ => (single_res _).bind fun _ => single_user.bind fun _ => ?_
  let cur : ZosditMap K V → BTree.Cursor K (List V) := fun m =>
    let c := BTree.upperBound (exclusiveComp (start q) .lt) m.inner
    if c.key.isNone then c.moveNext else c
  have hcur : ∀ m, (cur m).entries = m.inner := by
    intro m
    simp only [cur]
    split
    · rw [entries_moveNext, entries_upperBound]
    · rw [entries_upperBound]
  refine (Grain.lift (T := ZosditMap K V) (S := ZCur K V) (w := entriesOf fun s : ZCur K V => s.2.entries)
    (view' := zents) (pre' := fun r m => AtMostOne r (zents m))
    (a := fun m => zCutLoop q ((cur m).after.length + 1)) (fun m => (m.len, cur m)) (fun _ c => ⟨c.1, c.2.entries⟩)
    (fun _ => single_zCutLoop q _) ?_ (fun _ _ => rfl)).weaken (fun _ _ h => h) ?_
  · intro r m h
    show AtMostOne r (cur m).entries
    rw [hcur]
    exact h
  · rintro x r t ⟨t', s, rfl, hs⟩
    exact hs

theorem atMostOne_entryPush (comp : K → Res Ordering) (k : K) (v : V) (pick : Nat) (l l' : List (K × List V))
    (h : ZosditMap.entryPush comp k v pick l = .ok l') : AtMostOne l l' := by
  induction l generalizing pick l' with
  | nil =>
    simp only [ZosditMap.entryPush] at h
    cases h
    exact AtMostOne.added _ _
  | cons e l ih =>
    unfold ZosditMap.entryPush at h
    simp only [bind, Except.bind, pure, Except.pure] at h
    have hstep : ∀ pick l1, ZosditMap.entryPush comp k v pick l = .ok l1 → AtMostOne (e :: l) (e :: l1) :=
      fun pick l1 h1 => AtMostOne.cons e (ih pick l1 h1)
    have hrep := AtMostOne.replaced e (e.1, e.2 ++ [v]) l
    have hadd := AtMostOne.added (k, [v]) (e :: l)
    clear ih
    repeat' split at h
    all_goals grind

theorem entries_lastAtPointCursor (m : ZosditMap K V) (p : I) : (m.lastAtPointCursor p).entries = m.inner := by
  unfold ZosditMap.lastAtPointCursor
  dsimp only
  split
  · rw [entries_movePrev, entries_lowerBound]
  · rw [entries_lowerBound]

theorem single_zStep (op : ZOp I K V) : Single (entriesOf zents) (zStep op) := by
  cases op
  case cut q => exact (single_zCut q).bind fun _ => single_pure _
  case insertStrictBack k v pick =>
    refine single_atomic fun s s' o h => ?_
    simp only [ZosditMap.step, ZosditMap.insertStrictBack, bind, Except.bind, pure, Except.pure] at h
    split at h
    · cases h
    · rename_i r hr
      split at hr
      · cases hr
      · split at hr
        · cases hr
        · split at hr
          · cases hr
            cases h
            exact AtMostOne.refl _
          · split at hr
            · cases hr
            · rename_i he
              cases hr
              cases h
              exact atMostOne_entryPush _ _ _ _ _ _ he
  case removeLastValueAtPoint p =>
    refine single_atomic fun s s' o h => ?_
    have he := entries_lastAtPointCursor s p
    simp only [ZosditMap.step, ZosditMap.removeLastValueAtPoint, bind, Except.bind, pure, Except.pure] at h
    generalize s.lastAtPointCursor p = c at he h
    obtain ⟨b, a⟩ := c
    cases a with
    | nil =>
      cases h
      exact AtMostOne.refl _
    | cons e rest =>
      obtain ⟨key, value⟩ := e
      dsimp only [BTree.Cursor.entries] at he h
      show AtMostOne s.inner _
      rw [← he]
      split at h
      · cases h
      · rename_i r hr
        split at hr
        · split at hr
          · cases hr
          · cases hr
            cases h
            dsimp only
            split
            · exact AtMostOne.append_left b (AtMostOne.tail _ _)
            · exact AtMostOne.append_left b (AtMostOne.replaced _ _ _)
        · cases hr
          cases h
          rw [he]
          exact AtMostOne.refl _

/-- **C116**, maps: of the entries seen by one run of user code and by the next one in the same call (or left by the call,
after the last one), at most one is different. (`iter_mut` and `overlapping_mut` are left out: they hand out references, with
which the caller changes values when and how it likes.) -/
theorem C116_map_one_at_a_time [BEq V] (m : NoditMap K V) (op : Op I K V) (h1 : ∀ q f, op ≠ .overlappingMut q f)
    (h2 : ∀ f, op ≠ .iterMut f) (n : Nat) :
    AtMostOne (step op m (some n)).2.1.iter (step op m (some (n + 1))).2.1.iter :=
  (single_step op h1 h2).spec m n

/-- **C116**, sets -/
theorem C116_set_one_at_a_time (s : NoditSet K) (op : SetCall I K) (n : Nat) :
    AtMostOne (setStep op s (some n)).2.1.iter (setStep op s (some (n + 1))).2.1.iter := by
  have h := C116_map_one_at_a_time s.inner op.toMap (by cases op <;> simp [SetCall.toMap])
    (by cases op <;> simp [SetCall.toMap]) n
  obtain ⟨a, x, x', b, h1, h2, h3, h4⟩ := h
  refine ⟨a.map Prod.fst, x.map Prod.fst, x'.map Prod.fst, b.map Prod.fst, ?_, ?_, by simpa using h3, by simpa using h4⟩
  · simp only [NoditSet.iter, setStep_state, ← List.map_append, ← h1]
  · simp only [NoditSet.iter, setStep_state, ← List.map_append, ← h2]

/-- **C116**, `Gqdit`: the intervals with their sets of identifiers -/
theorem C116_gqdit_one_at_a_time [DecidableEq D] (g : Gqdit K D) (op : GqOp I K D) (n : Nat) :
    AtMostOne (gqStep op g (some n)).2.1.inner.iter (gqStep op g (some (n + 1))).2.1.inner.iter :=
  (single_gqStep op).spec g n

/-- **C116**, `append`: in each step one of the two stays as it is -/
theorem C116_append_one_at_a_time [DecidableEq D] (g : Gqdit K D × Gqdit K D) (n : Nat) :
    let g1 := (append (I := I) g (some n)).2.1
    let g2 := (append (I := I) g (some (n + 1))).2.1
    AtMostOne g1.1.inner.iter g2.1.inner.iter ∧ g1.2.inner.iter = g2.2.inner.iter ∨
      g1.1.inner.iter = g2.1.inner.iter ∧ AtMostOne g1.2.inner.iter g2.2.inner.iter :=
  single_append.spec g n

/-- **C116**, `ZosditMap`: one store (a key with its values) at a time -/
theorem C116_zosdit_one_at_a_time (m : ZosditMap K V) (op : ZOp I K V) (n : Nat) :
    AtMostOne (zStep op m (some n)).2.1.inner (zStep op m (some (n + 1))).2.1.inner :=
  (single_zStep op).spec m n

end Nodit.Crash
