import Verif.Crash
import Verif.CrashSpec
import Verif.Props.MapProps
import Verif.Props.Algebra
/-!
# C78: panics of user code in the middle of a call

Whatever user code panics, and wherever in a call, the map is left well-formed, equal to a map that could have been
built without any panic, and only entries the call was about to change can be missing.
-/
set_option linter.unusedSectionVars false
namespace Nodit
open Spec PointType

namespace Crash
open Act

section
variable {S α β : Type}

/-- from state `s`, whatever the fuel: results and end states satisfy `Q`, states left by a panic of user code satisfy
`C`, panics of the crate and the states left by them satisfy `E`; without fuel there is no panic of user code. -/
def Sat (x : Act S α) (s : S) (Q : α → S → Prop) (C : S → Prop) (E : Panic → S → Prop) : Prop :=
  ∀ n, match x s n with
    | (.ok a, s', n') => Q a s' ∧ (n = none → n' = none)
    | (.error .user, s', _) => C s' ∧ n ≠ none
    | (.error (.crate p), s', _) => E p s'

variable {Q : α → S → Prop} {Q' : β → S → Prop} {C : S → Prop} {E : Panic → S → Prop} {s : S}

theorem sat_bind {x : Act S α} {f : α → Act S β} (hx : Sat x s Q C E) (hf : ∀ a s', Q a s' → Sat (f a) s' Q' C E) :
    Sat (x >>= f) s Q' C E := by
  intro n
  have h := hx n
  change match (match x s n with
    | (.ok a, s', n') => f a s' n'
    | (.error e, s', n') => (.error e, s', n')) with
    | (.ok a, s', n') => Q' a s' ∧ (n = none → n' = none)
    | (.error .user, s', _) => C s' ∧ n ≠ none
    | (.error (.crate p), s', _) => E p s'
  revert h
  rcases x s n with ⟨(e | a), s', n'⟩
  · cases e <;> exact id
  · rintro ⟨h1, h2⟩
    have h := hf a s' h1 n'
    simp only
    revert h
    rcases f a s' n' with ⟨(e | b), s'', n''⟩
    · cases e with
      | user => exact fun h => ⟨h.1, fun hn => h.2 (h2 hn)⟩
      | crate p => exact id
    · exact fun h => ⟨h.1, fun hn => h.2 (h2 hn)⟩

theorem sat_pure {a : α} (h : Q a s) : Sat (pure a) s Q C E := fun _ => ⟨h, id⟩

theorem sat_user {f : Unit → Act S β} (hc : C s) (hf : Sat (f ()) s Q' C E) : Sat (user >>= f) s Q' C E := by
  refine sat_bind (Q := fun _ s' => s' = s) ?_ (fun _ s' h => h ▸ hf)
  intro n
  rcases n with - | (- | n)
  · exact ⟨rfl, id⟩
  · exact ⟨hc, by simp⟩
  · exact ⟨rfl, by simp⟩

theorem sat_user' {Q : Unit → S → Prop} (hc : C s) (hq : Q () s) : Sat user s Q C E := by
  intro n
  rcases n with - | (- | n)
  · exact ⟨hq, id⟩
  · exact ⟨hc, by simp⟩
  · exact ⟨hq, by simp⟩

theorem sat_get {f : S → Act S β} (hf : Sat (f s) s Q' C E) : Sat (get >>= f) s Q' C E :=
  sat_bind (Q := fun a s' => a = s ∧ s' = s) (fun _ => ⟨⟨rfl, rfl⟩, id⟩) (fun _ _ h => by rw [h.1, h.2]; exact hf)

theorem sat_set {f : Unit → Act S β} {t : S} (hf : Sat (f ()) t Q' C E) : Sat (set t >>= f) s Q' C E :=
  sat_bind (Q := fun _ s' => s' = t) (fun _ => ⟨rfl, id⟩) (fun _ _ h => by rw [h]; exact hf)

theorem sat_set' {Q : Unit → S → Prop} {t : S} (hq : Q () t) : Sat (set t) s Q C E := fun _ => ⟨hq, id⟩

theorem sat_res {x : Res α} {a : α} {f : α → Act S β} (hx : x = .ok a) (hf : Sat (f a) s Q' C E) :
    Sat (res x >>= f) s Q' C E := by
  subst hx
  exact sat_bind (Q := fun a' s' => a' = a ∧ s' = s) (fun _ => ⟨⟨rfl, rfl⟩, id⟩) (fun _ _ h => by rw [h.1, h.2]; exact hf)

theorem sat_weaken {x : Act S α} {Q₂ : α → S → Prop} {C₂ : S → Prop} {E₂ : Panic → S → Prop} (hx : Sat x s Q C E)
    (hQ : ∀ a s', Q a s' → Q₂ a s') (hC : ∀ s', C s' → C₂ s') (hE : ∀ p s', E p s' → E₂ p s') : Sat x s Q₂ C₂ E₂ := by
  intro n
  have h := hx n
  revert h
  rcases x s n with ⟨(e | a), s', n'⟩
  · cases e with
    | user => exact fun h => ⟨hC _ h.1, h.2⟩
    | crate p => exact hE _ _
  · exact fun h => ⟨hQ _ _ h.1, h.2⟩
end

variable {I K Q V : Type} [PointType I] [IntervalType I K] [IntervalType I Q]
  [LawfulPoint I] [LawfulInterval I K]

theorem sat_check {S β : Type} {q : Q} {s : S} {f : Unit → Act S β} {Q' : β → S → Prop} {C : S → Prop}
    {E : Panic → S → Prop} (he : ¬ Valid q → E .invalidInterval s) (hf : Valid q → Sat (f ()) s Q' C E) :
    Sat (res (invalidIntervalPanic q) >>= f) s Q' C E := by
  by_cases hq : Valid q
  · exact sat_res (invalidIntervalPanic_ok (valid_iff.1 hq)) (hf hq)
  · refine sat_bind (Q := fun _ _ => False) ?_ (fun _ _ h => h.elim)
    intro n
    rw [invalidIntervalPanic_err (mt valid_iff.2 hq)]
    exact he hq

/-! ### `remove_overlapping` -/

theorem removeLoop_sat {q : Q} (hq : start q ≤ stop q) {b l : List (K × V)} (h : Chain l)
    (hl : ∀ e ∈ l, start q ≤ stop e.1) {n : Nat} (hn : l.length < n) :
    Sat (removeLoop q n) ⟨b, l⟩
      (fun r c => c.entries = b ++ l.filter (fun e => !ovl q e) ∧ r = l.filter (ovl q))
      (fun c => ∃ l₁ l₂, l = l₁ ++ l₂ ∧ (∀ e ∈ l₁, ovl q e = true) ∧ c.entries = b ++ l₂)
      (fun _ _ => False) := by
  induction n generalizing l with
  | zero => omega
  | succ n ih =>
    unfold removeLoop
    apply sat_get
    cases l with
    | nil => exact sat_pure ⟨rfl, rfl⟩
    | cons e l =>
      have hc := h
      rw [Chain.cons] at h
      have hle : start q ≤ stop e.1 := hl e (by simp)
      simp only [BTree.Cursor.key, List.head?_cons, Option.map_some]
      apply sat_user
      · exact ⟨[], e :: l, rfl, by simp, rfl⟩
      · refine sat_res (Nodit.overlaps_ok hq h.1) ?_
        by_cases ho : ovl q e = true
        · have ho' : decide (start q ≤ stop e.1 ∧ start e.1 ≤ stop q) = true := by
            simp only [ovl, decide_eq_true_eq] at ho ⊢; exact ⟨ho.2, ho.1⟩
          rw [if_pos ho']
          simp only [BTree.Cursor.removeCurrent]
          apply sat_set
          refine sat_res (a := e) rfl ?_
          refine sat_bind (Q := fun r (c : BTree.Cursor K V) => c.entries = b ++ l.filter (fun e => !ovl q e) ∧ r = l.filter (ovl q)) ?_ ?_
          · refine sat_weaken (ih h.2.2 (fun x hx => hl x (by simp [hx])) (by simpa using hn)) (fun _ _ h => h) ?_ (fun _ _ h => h)
            rintro c ⟨l₁, l₂, rfl, h2, h3⟩
            exact ⟨e :: l₁, l₂, rfl, by simpa [ho] using h2, h3⟩
          · rintro r c ⟨h1, h2⟩
            apply sat_pure
            rw [List.filter_cons_of_pos ho, List.filter_cons_of_neg (by simp [ho]), h2]
            exact ⟨h1, rfl⟩
        · have ho' : ¬ decide (start q ≤ stop e.1 ∧ start e.1 ≤ stop q) = true := by
            simp only [ovl, decide_eq_true_eq] at ho ⊢; tauto
          rw [if_neg ho']
          apply sat_pure
          have hall := NoditMap.removeLoop_ok hc hq hl
          unfold NoditMap.removeLoop at hall
          rw [Nodit.overlaps_ok hq h.1] at hall
          simp only [bind, Except.bind, pure, Except.pure, if_neg ho'] at hall
          injection hall with hall
          injection hall with h1 h2
          rw [← h1, ← h2]
          exact ⟨rfl, rfl⟩

theorem lowerBound_split {l : List (K × V)} (h : Chain l) (p : I) :
    BTree.lowerBound (overlappingComp p) l =
      ⟨l.filter (fun e => decide (stop e.1 < p)), l.filter (fun e => decide (p ≤ stop e.1))⟩ := by
  unfold BTree.lowerBound
  rw [h.takeWhile_gt, h.dropWhile_gt]

theorem withCursor_sat {α : Type} {at_ : List (K × V) → BTree.Cursor K V} {body : Nat → Act (BTree.Cursor K V) α}
    {m : NoditMap K V} {Q' : α → NoditMap K V → Prop} {C : NoditMap K V → Prop} {E : Panic → NoditMap K V → Prop}
    (h : Sat (body ((at_ m.inner).after.length + 1)) (at_ m.inner)
      (fun a c => Q' a ⟨c.entries⟩) (fun c => C ⟨c.entries⟩) (fun p c => E p ⟨c.entries⟩)) :
    Sat (withCursor at_ body) m Q' C E := by
  intro n
  have h := h n
  revert h
  unfold withCursor
  simp only
  rcases body ((at_ m.inner).after.length + 1) (at_ m.inner) n with ⟨(e | a), s', n'⟩
  · cases e <;> exact id
  · exact id

/-- a state left behind by removing entries satisfying `P` -/
def Shrunk (m m' : NoditMap K V) (P : K × V → Prop) : Prop :=
  m'.inner.Sublist m.inner ∧ ∀ e ∈ m.inner, e ∉ m'.inner → P e

theorem Shrunk.refl (m : NoditMap K V) (P : K × V → Prop) : Shrunk m m P :=
  ⟨List.Sublist.refl _, fun _ h h' => absurd h h'⟩

theorem Chain.sublist {l l' : List (K × V)} (h : Chain l) (hs : l'.Sublist l) : Chain l' :=
  ⟨fun e he => h.1 e (hs.subset he), h.2.sublist hs⟩

theorem Shrunk.trans {m m₁ m₂ : NoditMap K V} {P : K × V → Prop} (h₁ : Shrunk m m₁ P) (h₂ : Shrunk m₁ m₂ P) :
    Shrunk m m₂ P := by
  refine ⟨h₂.1.trans h₁.1, fun e he he' => ?_⟩
  by_cases h : e ∈ m₁.inner
  · exact h₂.2 e h he'
  · exact h₁.2 e he h

theorem Shrunk.mono {m m' : NoditMap K V} {P P' : K × V → Prop} (h : Shrunk m m' P)
    (hp : ∀ e ∈ m.inner, P e → P' e) : Shrunk m m' P' := ⟨h.1, fun e he he' => hp e he (h.2 e he he')⟩

theorem Shrunk.leaves {m m' : NoditMap K V} {P : K × V → Prop} (hm : WF m.iter) (h : Shrunk m m' P) :
    WF m'.iter ∧ LosesOnly m.entrySet m'.entrySet P :=
  ⟨wf_iff_chain.2 (Chain.sublist (wf_iff_chain.1 hm) h.1), fun _ he => h.1.subset he, h.2⟩

theorem removeOverlapping_sat {q : Q} {m : NoditMap K V} (h : Chain m.inner) {E : Panic → NoditMap K V → Prop}
    (hE : ¬ Valid q → E .invalidInterval m) :
    Sat (removeOverlapping q) m (fun r m' => m.removeOverlapping q = .ok (m', r) ∧ Valid q)
      (fun m' => Shrunk m m' (fun e => Overlap e.1 q)) E := by
  unfold removeOverlapping
  refine sat_user (Shrunk.refl _ _) ?_
  refine sat_check hE ?_
  intro hv
  have hq := valid_iff.1 hv
  refine sat_user (Shrunk.refl _ _) ?_
  apply withCursor_sat
  have hsplit := h.split (start q)
  have hb : ∀ x ∈ m.inner.filter (fun e => decide (stop e.1 < start q)), ovl q x = false := by
    intro x hx
    have := (List.mem_filter.1 hx).2
    simp only [decide_eq_true_eq] at this
    simp [ovl, not_le.2 this]
  rw [lowerBound_split h]
  refine sat_weaken (removeLoop_sat hq (h.filter _)
    (fun e he => by simpa using (List.mem_filter.1 he).2) (Nat.lt_succ_self _)) ?_ ?_ (fun _ _ h => h.elim)
  · rintro r c ⟨h1, h2⟩
    refine ⟨?_, hv⟩
    rw [NoditMap.removeOverlapping_ok h hq, h1, h2]
    congr 2
    · congr 1
      conv_lhs => rw [← hsplit, List.filter_append]
      congr 1
      rw [List.filter_eq_self]
      intro x hx
      simp [hb x hx]
    · conv_lhs => rw [← hsplit, List.filter_append]
      have : (m.inner.filter (fun e => decide (stop e.1 < start q))).filter (ovl q) = [] := by
        rw [List.filter_eq_nil_iff]
        intro x hx
        simp [hb x hx]
      rw [this, List.nil_append]
  · rintro c ⟨l₁, l₂, hl, h2, h3⟩
    rw [h3]
    refine ⟨?_, ?_⟩
    · conv_rhs => rw [← hsplit, hl]
      exact List.Sublist.append (List.Sublist.refl _) (List.sublist_append_right _ _)
    · intro e he he'
      have he2 := he
      rw [← hsplit, hl] at he2
      have : e ∈ l₁ := by
        rcases List.mem_append.1 he2 with h5 | h5
        · exact absurd (List.mem_append_left _ h5) he'
        · rcases List.mem_append.1 h5 with h5 | h5
          · exact h5
          · exact absurd (List.mem_append_right _ h5) he'
      exact (ovl_iff hq (h.1 e he)).1 (h2 e this)

/-! ### `cut` -/

/-- what `putBack` inserts -/
def pieceOf (value : V) : Option (Interval I) → List (K × V)
  | some i => [(ofInterval i, value)]
  | none => []

theorem putBack_sat {value : V} {part : Option (Interval I)} {b l : List (K × V)} {C : BTree.Cursor K V → Prop}
    {E : Panic → BTree.Cursor K V → Prop} (hC : C ⟨b, l⟩) :
    Sat (putBack value part) ⟨b, l⟩
      (fun _ c => c = ⟨b ++ pieceOf value part, l⟩) C E := by
  cases part with
  | none => exact sat_pure (by simp [pieceOf])
  | some i =>
    unfold putBack
    refine sat_user hC ?_
    apply sat_get
    exact sat_set' rfl

theorem cutOut_of_ovl' {q : Q} {e : K × V} (h : ovl q e = true) : cutOut q e =
    pieceOf e.2 (if start e.1 < start q then (down (start q)).map (fun d => (⟨start e.1, d⟩ : Interval I)) else none) ++
    pieceOf e.2 (if stop q < stop e.1 then (up (stop q)).map (fun u => (⟨u, stop e.1⟩ : Interval I)) else none) := by
  rw [cutOut_of_ovl h]
  generalize (if start e.1 < start q then (down (start q)).map (fun d => (⟨start e.1, d⟩ : Interval I)) else none) = p
  generalize (if stop q < stop e.1 then (up (stop q)).map (fun u => (⟨u, stop e.1⟩ : Interval I)) else none) = p'
  cases p <;> cases p' <;> rfl

theorem cutLoop_sat {q : Q} (hq : start q ≤ stop q) {b l : List (K × V)} (h : Chain l)
    (hl : ∀ e ∈ l, start q ≤ stop e.1) {n : Nat} (hn : l.length < n) :
    Sat (cutLoop q n) ⟨b, l⟩
      (fun r c => c.entries = b ++ l.flatMap (cutOut q) ∧ r = l.flatMap (cutIn q))
      (fun c => ∃ l₁ mid part l₂, l = l₁ ++ mid ++ l₂ ∧ (∀ e ∈ l₁ ++ mid, ovl q e = true) ∧ mid.length ≤ 1 ∧
        part.Sublist (mid.flatMap (cutOut q)) ∧ c.entries = b ++ l₁.flatMap (cutOut q) ++ part ++ l₂)
      (fun _ _ => False) := by
  induction n generalizing b l with
  | zero => omega
  | succ n ih =>
    unfold cutLoop
    apply sat_get
    cases l with
    | nil => exact sat_pure ⟨by simp [BTree.Cursor.entries], rfl⟩
    | cons e l =>
      have hc := h
      rw [Chain.cons] at h
      have hle : start q ≤ stop e.1 := hl e (by simp)
      simp only [BTree.Cursor.key, List.head?_cons, Option.map_some]
      apply sat_user
      · exact ⟨[], [], [], e :: l, rfl, by simp, by simp, by simp, by simp [BTree.Cursor.entries]⟩
      · refine sat_res (Nodit.overlaps_ok h.1 hq) ?_
        by_cases ho : ovl q e = true
        · have ho2 : start e.1 ≤ stop q ∧ start q ≤ stop e.1 := by
            simpa only [ovl, decide_eq_true_eq] using ho
          rw [if_neg (by simp [ho2])]
          simp only [BTree.Cursor.removeCurrent]
          apply sat_set
          refine sat_res (a := e) rfl ?_
          obtain ⟨key, value⟩ := e
          simp only
          have crash : ∀ part : List (K × V), part.Sublist (cutOut q (key, value)) →
              ∃ l₁ mid part' l₂, (key, value) :: l = l₁ ++ mid ++ l₂ ∧ (∀ e ∈ l₁ ++ mid, ovl q e = true) ∧ mid.length ≤ 1 ∧
                part'.Sublist (mid.flatMap (cutOut q)) ∧
                (⟨b ++ part, l⟩ : BTree.Cursor K V).entries = b ++ l₁.flatMap (cutOut q) ++ part' ++ l₂ := by
            intro part hp
            exact ⟨[], [(key, value)], part, l, rfl, by simpa using ho, by simp, by simpa using hp,
              by simp [BTree.Cursor.entries]⟩
          refine sat_user (by simpa using crash [] (List.nil_sublist _)) ?_
          refine sat_res (cutInterval_ok h.1 hq ho2) ?_
          simp only
          have hout := cutOut_of_ovl' ho
          simp only at hout
          generalize (if start key < start q then (down (start q)).map (fun d => (⟨start key, d⟩ : Interval I)) else none)
            = p1 at hout ⊢
          generalize (if stop q < stop key then (up (stop q)).map (fun u => (⟨u, stop key⟩ : Interval I)) else none)
            = p2 at hout ⊢
          refine sat_bind (putBack_sat (by simpa using crash [] (List.nil_sublist _))) ?_
          rintro - c rfl
          have hs1 := crash (pieceOf value p1)
            (by rw [hout]; exact List.sublist_append_left _ _)
          refine sat_bind (putBack_sat hs1) ?_
          rintro - c rfl
          refine sat_res (a := ⟨max (start key) (start q), min (stop key) (stop q)⟩) rfl ?_
          have hs2 := crash _ (List.Sublist.refl (cutOut q (key, value)))
          rw [List.append_assoc, ← hout]
          refine sat_user hs2 ?_
          refine sat_bind (Q := fun r (c : BTree.Cursor K V) => c.entries = b ++ cutOut q (key, value) ++ l.flatMap (cutOut q) ∧ r = l.flatMap (cutIn q)) ?_ ?_
          · refine sat_weaken (ih h.2.2 (fun x hx => hl x (by simp [hx])) (by simpa using hn)) (fun _ _ h => h) ?_ (fun _ _ h => h)
            rintro c ⟨l₁, mid, part, l₂, rfl, h2, h3, h4, h5⟩
            refine ⟨(key, value) :: l₁, mid, part, l₂, rfl, ?_, h3, h4, ?_⟩
            · intro x hx
              rcases List.mem_append.1 hx with hx | hx
              · rcases List.mem_cons.1 hx with rfl | hx
                · exact ho
                · exact h2 x (List.mem_append_left _ hx)
              · exact h2 x (List.mem_append_right _ hx)
            · rw [h5]; simp
          · rintro r c ⟨h1, h2⟩
            apply sat_pure
            rw [List.flatMap_cons, List.flatMap_cons, h1, h2]
            simp [cutIn, ho]
        · have ho2 : ¬ (start e.1 ≤ stop q ∧ start q ≤ stop e.1) := by
            simpa only [ovl, decide_eq_true_eq] using ho
          have ho3 : (!decide (start e.1 ≤ stop q ∧ start q ≤ stop e.1)) = true := by rw [decide_eq_false ho2]; rfl
          rw [if_pos ho3]
          apply sat_pure
          have hall := NoditMap.cutLoop_ok hc hq hl
          unfold NoditMap.cutLoop at hall
          rw [Nodit.overlaps_ok h.1 hq] at hall
          simp only [bind, Except.bind, pure, Except.pure] at hall
          rw [if_pos ho3] at hall
          injection hall with hall
          injection hall with h1 h2
          rw [← h1, ← h2]
          exact ⟨rfl, rfl⟩

/-- `l'` replaces every entry of `l` by a chain inside it -/
inductive Refined : List (K × V) → List (K × V) → Prop
  | nil : Refined [] []
  | cons {e d l l'} : Chain d → (∀ x ∈ d, start e.1 ≤ start x.1 ∧ stop x.1 ≤ stop e.1) → Refined l l' →
      Refined (e :: l) (d ++ l')

theorem Refined.append {l₁ l₁' l₂ l₂' : List (K × V)} (h₁ : Refined l₁ l₁') (h₂ : Refined l₂ l₂') :
    Refined (l₁ ++ l₂) (l₁' ++ l₂') := by
  induction h₁ with
  | nil => exact h₂
  | cons hd hi _ ih => rw [List.append_assoc]; exact Refined.cons hd hi ih

theorem Refined.flatMap {l : List (K × V)} {f : K × V → List (K × V)}
    (hf : ∀ e ∈ l, Chain (f e) ∧ ∀ x ∈ f e, start e.1 ≤ start x.1 ∧ stop x.1 ≤ stop e.1) :
    Refined l (l.flatMap f) := by
  induction l with
  | nil => exact Refined.nil
  | cons e l ih =>
    rw [List.flatMap_cons]
    have := hf e (by simp)
    exact Refined.cons this.1 this.2 (ih (fun x hx => hf x (by simp [hx])))

theorem Refined.refl {l : List (K × V)} (h : Chain l) : Refined l l := by
  have := Refined.flatMap (l := l) (f := fun e => [e]) (fun e he => by
    refine ⟨Chain.cons.2 ⟨h.1 e he, by simp, Chain.nil⟩, ?_⟩
    intro x hx
    rw [List.mem_singleton.1 hx]
    exact ⟨le_rfl, le_rfl⟩)
  rwa [List.flatMap_singleton'] at this

theorem Refined.inside {l l' : List (K × V)} (h : Refined l l') {x : K × V} (hx : x ∈ l') :
    ∃ e ∈ l, start e.1 ≤ start x.1 ∧ stop x.1 ≤ stop e.1 := by
  induction h with
  | nil => simp at hx
  | cons hd hi _ ih =>
    rcases List.mem_append.1 hx with hx | hx
    · exact ⟨_, by simp, hi x hx⟩
    · obtain ⟨e, he, h⟩ := ih hx
      exact ⟨e, by simp [he], h⟩

theorem Refined.chain {l l' : List (K × V)} (h : Refined l l') (hl : Chain l) : Chain l' := by
  induction h with
  | nil => exact Chain.nil
  | cons hd hi hr ih =>
    rw [Chain.cons] at hl
    rw [Chain.append]
    refine ⟨hd, ih hl.2.2, ?_⟩
    intro a ha x hx
    obtain ⟨e, he, h⟩ := hr.inside hx
    have h1 := hi a ha
    have h2 := hl.2.1 e he
    order

theorem cutRemaining_eq {S : Set (K × V)} {q : Q} (hq : start q ≤ stop q) (hS : ∀ e ∈ S, start e.1 ≤ stop e.1) (x : K × V) :
    x ∈ CutRemaining S q ↔ ∃ e ∈ S, x ∈ cutOut q e := by
  constructor
  · rintro (⟨he, hno⟩ | ⟨f, hf, ho, hi⟩)
    · exact ⟨x, he, (mem_cutOut hq (hS x he)).2 (Or.inl ⟨rfl, hno⟩)⟩
    · exact ⟨f, hf, (mem_cutOut hq (hS f hf)).2 (Or.inr ⟨ho, hi⟩)⟩
  · rintro ⟨e, he, hx⟩
    rcases (mem_cutOut hq (hS e he)).1 hx with ⟨rfl, hno⟩ | ⟨ho, hi⟩
    · exact Or.inl ⟨he, hno⟩
    · exact Or.inr ⟨e, he, ho, hi⟩

/-- the state in the middle of a `cut` -/
theorem partly_cut {m : NoditMap K V} {q : Q} (h : Chain m.inner) (hq : start q ≤ stop q)
    {b l₁ mid part l₂ : List (K × V)} (hm : m.inner = b ++ (l₁ ++ mid ++ l₂)) (ho : ∀ e ∈ l₁ ++ mid, ovl q e = true)
    (hmid : mid.length ≤ 1) (hp : part.Sublist (mid.flatMap (cutOut q))) :
    WF (⟨b ++ l₁.flatMap (cutOut q) ++ part ++ l₂⟩ : NoditMap K V).iter ∧
    PartlyCut m.entrySet (⟨b ++ l₁.flatMap (cutOut q) ++ part ++ l₂⟩ : NoditMap K V).entrySet q := by
  have hv := h.1
  have hc := h
  rw [hm] at hc hv
  have hvl₁ : ∀ e ∈ l₁, start e.1 ≤ stop e.1 := fun e he => hv e (by simp [he])
  have hvm : ∀ e ∈ mid, start e.1 ≤ stop e.1 := fun e he => hv e (by simp [he])
  have hcb : Chain b ∧ Chain (l₁ ++ mid ++ l₂) := ⟨(Chain.append.1 hc).1, (Chain.append.1 hc).2.1⟩
  have hcl₂ : Chain l₂ := (Chain.append.1 hcb.2).2.1
  have hcl₁ := (Chain.append.1 (Chain.append.1 hcb.2).1)
  have hr : Refined m.inner (b ++ (l₁.flatMap (cutOut q) ++ part ++ l₂)) := by
    rw [hm]
    refine (Refined.refl hcb.1).append (((Refined.flatMap (fun e he => cutOut_chain hq (hvl₁ e he))).append ?_).append
      (Refined.refl hcl₂))
    match mid, hmid with
    | [], _ =>
      rw [List.flatMap_nil] at hp
      rw [List.sublist_nil.1 hp]; exact Refined.nil
    | [e], _ =>
      rw [List.flatMap_singleton] at hp
      have := cutOut_chain hq (hvm e (by simp))
      have h2 := Refined.cons (e := e) (Chain.sublist this.1 hp) (fun x hx => this.2 x (hp.subset hx)) Refined.nil
      rwa [List.append_nil] at h2
    | _ :: _ :: _, hmid => simp at hmid
  refine ⟨wf_iff_chain.2 ?_, ?_⟩
  · have := hr.chain h
    simpa only [List.append_assoc, NoditMap.iter] using this
  · refine ⟨{e | e ∈ l₁}, {e | e ∈ mid}, {e | e ∈ part}, ?_, ?_, ?_, ?_⟩
    · intro x hx
      have := hp.subset hx
      rw [List.mem_flatMap] at this
      exact (cutRemaining_eq hq hvm x).2 this
    · intro e he
      have he' : e ∈ l₁ ++ mid := List.mem_append.2 he
      have hem : e ∈ m.inner := by rw [hm]; simp only [List.mem_append] at he' ⊢; tauto
      exact ⟨hem, (ovl_iff hq (h.1 e hem)).1 (ho e he')⟩
    · intro e he d hd
      have he : e ∈ mid := he
      have hd : d ∈ mid := hd
      match mid, hmid with
      | [], _ => simp at he
      | [x], _ => rw [List.mem_singleton.1 he, List.mem_singleton.1 hd]
      | _ :: _ :: _, hmid => simp at hmid
    · have hdis : ∀ x, x ∈ b ∨ x ∈ l₂ → x ∉ l₁ ++ mid := by
        intro x hx hx'
        have hpw := hc.2
        rw [List.pairwise_append] at hpw
        rcases hx with hx | hx
        · have h1 := hpw.2.2 x hx x (List.mem_append_left _ hx')
          have h2 := hv x (List.mem_append_left _ hx)
          order
        · have hpw2 := hpw.2.1
          rw [List.pairwise_append] at hpw2
          have h1 := hpw2.2.2 x hx' x hx
          have h2 := hv x (by simp [hx])
          order
      ext x
      change x ∈ b ++ l₁.flatMap (cutOut q) ++ part ++ l₂ ↔
        ((x ∈ m.inner ∧ ¬ (x ∈ l₁ ∨ x ∈ mid)) ∨ x ∈ CutRemaining {e | e ∈ l₁} q) ∨ x ∈ part
      rw [cutRemaining_eq (S := {e | e ∈ l₁}) hq hvl₁, hm]
      have := hdis x
      simp only [List.mem_append, List.mem_flatMap] at this ⊢
      change _ ↔ (_ ∨ ∃ e ∈ l₁, x ∈ cutOut q e) ∨ _
      generalize (∃ e ∈ l₁, x ∈ cutOut q e) = A at *
      clear hm hr hp
      by_cases hx1 : x ∈ l₁ <;> by_cases hx2 : x ∈ mid <;> by_cases hx3 : x ∈ b <;> by_cases hx4 : x ∈ l₂ <;>
        simp_all

theorem partlyCut_refl {m : NoditMap K V} (q : Q) : PartlyCut m.entrySet m.entrySet q := by
  refine ⟨∅, ∅, ∅, Set.empty_subset _, by simp, by simp, ?_⟩
  have : CutRemaining (∅ : Set (K × V)) q = ∅ := by
    ext x
    simp [CutRemaining]
  rw [this]
  ext x
  simp

theorem cut_sat {q : Q} {m : NoditMap K V} (h : WF m.iter) {E : Panic → NoditMap K V → Prop}
    (hE : ¬ Valid q → E .invalidInterval m) :
    Sat (cut q) m (fun r m' => m.cut q = .ok (m', r) ∧ Valid q)
      (fun m' => WF m'.iter ∧ PartlyCut m.entrySet m'.entrySet q) E := by
  have hc := wf_iff_chain.1 h
  change Chain m.inner at hc
  unfold cut
  refine sat_user ⟨h, partlyCut_refl q⟩ ?_
  refine sat_check hE ?_
  intro hv
  have hq := valid_iff.1 hv
  refine sat_user ⟨h, partlyCut_refl q⟩ ?_
  apply withCursor_sat
  have hsplit := hc.split (start q)
  have hb : ∀ x ∈ m.inner.filter (fun e => decide (stop e.1 < start q)), ovl q x = false := by
    intro x hx
    have := (List.mem_filter.1 hx).2
    simp only [decide_eq_true_eq] at this
    simp [ovl, not_le.2 this]
  rw [lowerBound_split hc]
  refine sat_weaken (cutLoop_sat hq (hc.filter _)
    (fun e he => by simpa using (List.mem_filter.1 he).2) (Nat.lt_succ_self _)) ?_ ?_ (fun _ _ h => h.elim)
  · rintro r c ⟨h1, h2⟩
    refine ⟨?_, hv⟩
    unfold NoditMap.cut BTree.lowerBound
    rw [invalidIntervalPanic_ok hq, hc.takeWhile_gt, hc.dropWhile_gt]
    simp only [bind, Except.bind, pure, Except.pure]
    rw [NoditMap.cutLoop_ok (hc.filter _) hq (fun e he => by simpa using (List.mem_filter.1 he).2), h1, h2]
  · rintro c ⟨l₁, mid, part, l₂, hl, h2, h3, h4, h5⟩
    rw [h5]
    exact partly_cut hc hq (by rw [← hl, hsplit]) h2 h3 h4

/-! ### inserts -/

theorem remove_sublist (comp : K → Ordering) (l : List (K × V)) : (BTree.remove comp l).Sublist l := by
  induction l with
  | nil => exact List.Sublist.refl _
  | cons e l ih =>
    unfold BTree.remove
    cases comp e.1 with
    | gt => exact ih.cons_cons e
    | eq => exact List.sublist_cons_self _ _
    | lt => exact List.Sublist.refl _

theorem remove_lost {comp : K → Ordering} {l : List (K × V)} {e : K × V} (he : e ∈ l)
    (he' : e ∉ BTree.remove comp l) : comp e.1 = .eq ∧ BTree.find comp l = some e := by
  induction l with
  | nil => simp at he
  | cons d l ih =>
    unfold BTree.remove at he'
    unfold BTree.find
    cases hc : comp d.1 with
    | gt =>
      rw [hc] at he'
      simp only [List.mem_cons, not_or] at he'
      rcases List.mem_cons.1 he with rfl | he
      · exact absurd rfl he'.1
      · exact ih he he'.2
    | eq =>
      rw [hc] at he'
      rcases List.mem_cons.1 he with rfl | he
      · exact ⟨hc, rfl⟩
      · exact absurd he he'
    | lt =>
      rw [hc] at he'
      exact absurd he he'

theorem removeBy_sat {comp : K → Ordering} {m₀ m : NoditMap K V} {P : K × V → Prop} {E : Panic → NoditMap K V → Prop}
    (hm : Shrunk m₀ m P) (hP : ∀ e ∈ m.inner, BTree.find comp m.inner = some e → comp e.1 = .eq → P e) :
    Sat (removeBy comp) m (fun _ m' => m' = ⟨BTree.remove comp m.inner⟩ ∧ Shrunk m₀ m' P) (fun m' => Shrunk m₀ m' P) E := by
  unfold removeBy
  refine sat_user hm ?_
  apply sat_get
  apply sat_set
  have : Shrunk m₀ ⟨BTree.remove comp m.inner⟩ P := by
    refine hm.trans ⟨remove_sublist _ _, fun e he he' => ?_⟩
    obtain ⟨h1, h2⟩ := remove_lost he he'
    exact hP e he h2 h1
  exact sat_user' this ⟨rfl, this⟩

theorem insertUnchecked_sat {k : K} {v : V} {m : NoditMap K V} {C : NoditMap K V → Prop} {E : Panic → NoditMap K V → Prop}
    (hC : C m) : Sat (insertUnchecked k v) m (fun _ m' => m' = m.insertUnchecked k v) C E := by
  unfold insertUnchecked
  refine sat_user hC ?_
  apply sat_get
  exact sat_set' rfl

theorem insertMergeWithComps_sat {k : K} {v : V} {m : NoditMap K V} (h : Chain m.inner) {P : K × V → Prop}
    (hP : ∀ e ∈ m.inner, Overlap e.1 k → P e)
    {getStart getEnd : NoditMap K V → V → Option K} {removeStart removeEnd : V → Act (NoditMap K V) Unit}
    {removeStart' removeEnd' : NoditMap K V → V → NoditMap K V} {E : Panic → NoditMap K V → Prop}
    (hE : ¬ Valid k → E .invalidInterval m)
    (h1 : ∀ m', Valid k → Shrunk m m' P → Sat (removeStart v) m' (fun _ m'' => m'' = removeStart' m' v ∧ Shrunk m m'' P)
      (fun m' => Shrunk m m' P) E)
    (h2 : ∀ m', Valid k → Shrunk m m' P → Sat (removeEnd v) m' (fun _ m'' => m'' = removeEnd' m' v ∧ Shrunk m m'' P)
      (fun m' => Shrunk m m' P) E) :
    Sat (insertMergeWithComps k v getStart getEnd removeStart removeEnd) m
      (fun r m' => m.insertMergeWithComps k v getStart getEnd removeStart' removeEnd' = .ok (m', r))
      (fun m' => Shrunk m m' P) E := by
  unfold insertMergeWithComps
  refine sat_user (Shrunk.refl _ _) ?_
  refine sat_check hE ?_
  intro hv
  refine sat_user (Shrunk.refl _ _) ?_
  apply sat_get
  refine sat_bind (sat_weaken (removeOverlapping_sat h (E := E) hE) (fun _ _ h => h) (fun _ h => h.mono hP) (fun _ _ h => h)) ?_
  rintro r m₁ ⟨hr, -⟩
  have hs : Shrunk m m₁ P := by
    rw [NoditMap.removeOverlapping_ok h (valid_iff.1 hv)] at hr
    cases hr
    refine ⟨List.filter_sublist, fun e he he' => hP e he ?_⟩
    rw [← ovl_iff (valid_iff.1 hv) (h.1 e he)]
    by_contra hno
    exact he' (List.mem_filter.2 ⟨he, by simpa using hno⟩)
  refine sat_user hs ?_
  refine sat_bind (h1 m₁ hv hs) ?_
  rintro - m₂ ⟨e2, hs2⟩
  refine sat_bind (h2 m₂ hv hs2) ?_
  rintro - m₃ ⟨e3, hs3⟩
  refine sat_bind (insertUnchecked_sat hs3) ?_
  rintro - m₄ e4
  apply sat_pure
  unfold NoditMap.insertMergeWithComps
  rw [invalidIntervalPanic_ok (valid_iff.1 hv)]
  simp only [bind, Except.bind, pure, Except.pure]
  rw [hr, e4, e3, e2]
  rfl

/-- a panic of the crate: only for a `k` without points, and with the map unchanged -/
def Invalid (q : Q) (m : NoditMap K V) : Panic → NoditMap K V → Prop :=
  fun p m' => ¬ Valid q ∧ p = .invalidInterval ∧ m' = m

theorem insertStrict_sat {k : K} {v : V} {m : NoditMap K V} (h : Chain m.inner) :
    Sat (insertStrict k v) m (fun r m' => m.insertStrict k v = .ok (m', r)) (fun m' => m' = m) (Invalid k m) := by
  unfold insertStrict
  refine sat_user rfl ?_
  refine sat_check (fun hn => ⟨hn, rfl, rfl⟩) ?_
  intro hv
  refine sat_user rfl ?_
  apply sat_get
  have ho := NoditMap.overlaps_ok h (valid_iff.1 hv)
  refine sat_res ho ?_
  split_ifs with hh
  · refine sat_pure ?_
    unfold NoditMap.insertStrict
    rw [invalidIntervalPanic_ok (valid_iff.1 hv), ho]
    simp only [bind, Except.bind, pure, Except.pure, if_pos hh]
  · refine sat_bind (insertUnchecked_sat rfl) ?_
    rintro - m' rfl
    refine sat_pure ?_
    unfold NoditMap.insertStrict
    rw [invalidIntervalPanic_ok (valid_iff.1 hv), ho]
    simp only [bind, Except.bind, pure, Except.pure, if_neg hh]

theorem touch_start {m : NoditMap K V} {k : K} (h : Chain m.inner) (hk : start k ≤ stop k) {e : K × V}
    (he : e ∈ m.inner) (hc : touchingStartComp (start k) e.1 = .eq) : Touch e.1 k :=
  (touch_iff (h.1 e he) hk).2 (Or.inl (touchingStartComp_eq.1 hc))

theorem touch_end {m : NoditMap K V} {k : K} (h : Chain m.inner) (hk : start k ≤ stop k) {e : K × V}
    (he : e ∈ m.inner) (hc : touchingEndComp (stop k) e.1 = .eq) : Touch e.1 k :=
  (touch_iff (h.1 e he) hk).2 (Or.inr (touchingEndComp_eq.1 hc))

theorem insertMergeTouching_sat {k : K} {v : V} {m : NoditMap K V} (h : Chain m.inner) :
    Sat (insertMergeTouching k v) m (fun r m' => m.insertMergeTouching k v = .ok (m', r))
      (fun m' => Shrunk m m' (fun e => Touch e.1 k ∧ ¬ ∃ d ∈ m.entrySet, Overlap d.1 k)) (Invalid k m) := by
  unfold insertMergeTouching
  refine sat_user (Shrunk.refl _ _) ?_
  refine sat_check (fun hn => ⟨hn, rfl, rfl⟩) ?_
  intro hv
  have hk := valid_iff.1 hv
  refine sat_user (Shrunk.refl _ _) ?_
  apply sat_get
  have ho := NoditMap.overlaps_ok h hk
  refine sat_res ho ?_
  split_ifs with hh
  · refine sat_pure ?_
    unfold NoditMap.insertMergeTouching
    rw [invalidIntervalPanic_ok hk, ho]
    simp only [bind, Except.bind, pure, Except.pure, if_pos hh]
  · have hno : ¬ ∃ d ∈ m.entrySet, Overlap d.1 k := mt (NoditMap.any_ovl_iff h hk).2 hh
    refine sat_bind (insertMergeWithComps_sat (P := fun e => Touch e.1 k ∧ ¬ ∃ d ∈ m.entrySet, Overlap d.1 k) h
      (removeStart' := fun m _ => ⟨BTree.remove (touchingStartComp (start k)) m.inner⟩)
      (removeEnd' := fun m _ => ⟨BTree.remove (touchingEndComp (stop k)) m.inner⟩)
      (fun e he ho => absurd ⟨e, he, ho⟩ hno) (E := Invalid k m) (fun hn => ⟨hn, rfl, rfl⟩) ?_ ?_) ?_
    · intro m' _ hm'
      exact removeBy_sat hm' (fun e he _ hc => ⟨touch_start h hk (hm'.1.subset he) hc, hno⟩)
    · intro m' _ hm'
      exact removeBy_sat hm' (fun e he _ hc => ⟨touch_end h hk (hm'.1.subset he) hc, hno⟩)
    · intro r m' hr
      refine sat_pure ?_
      unfold NoditMap.insertMergeTouching
      rw [invalidIntervalPanic_ok hk, ho]
      simp only [bind, Except.bind, pure, Except.pure, if_neg hh, hr]

theorem insertMergeTouchingIfValuesEqual_sat [BEq V] {k : K} {v : V} {m : NoditMap K V} (h : Chain m.inner) :
    Sat (insertMergeTouchingIfValuesEqual k v) m (fun r m' => m.insertMergeTouchingIfValuesEqual k v = .ok (m', r))
      (fun m' => Shrunk m m' (fun e => Touch e.1 k ∧ (e.2 == v) = true ∧ ¬ ∃ d ∈ m.entrySet, Overlap d.1 k))
      (Invalid k m) := by
  unfold insertMergeTouchingIfValuesEqual
  refine sat_user (Shrunk.refl _ _) ?_
  refine sat_check (fun hn => ⟨hn, rfl, rfl⟩) ?_
  intro hv
  have hk := valid_iff.1 hv
  refine sat_user (Shrunk.refl _ _) ?_
  apply sat_get
  have ho := NoditMap.overlaps_ok h hk
  refine sat_res ho ?_
  split_ifs with hh
  · refine sat_pure ?_
    unfold NoditMap.insertMergeTouchingIfValuesEqual
    rw [invalidIntervalPanic_ok hk, ho]
    simp only [bind, Except.bind, pure, Except.pure, if_pos hh]
  · have hno : ¬ ∃ d ∈ m.entrySet, Overlap d.1 k := mt (NoditMap.any_ovl_iff h hk).2 hh
    have aux : ∀ (comp : K → Ordering) (m' : NoditMap K V),
        (((BTree.find comp m'.inner).filter (fun e => e.2 == v)).map Prod.fst).isSome →
        ∀ e, BTree.find comp m'.inner = some e → (e.2 == v) = true := by
      intro comp m' h1 e h2
      rw [h2] at h1
      by_contra h3
      simp [Option.filter, h3] at h1
    refine sat_bind (insertMergeWithComps_sat
      (P := fun e => Touch e.1 k ∧ (e.2 == v) = true ∧ ¬ ∃ d ∈ m.entrySet, Overlap d.1 k) h
      (removeStart' := fun m v => if (NoditMap.getStartEq k m v).isSome then
          ⟨BTree.remove (touchingStartComp (start k)) m.inner⟩ else m)
      (removeEnd' := fun m v => if (NoditMap.getEndEq k m v).isSome then
          ⟨BTree.remove (touchingEndComp (stop k)) m.inner⟩ else m)
      (fun e he ho => absurd ⟨e, he, ho⟩ hno) (E := Invalid k m) (fun hn => ⟨hn, rfl, rfl⟩) ?_ ?_) ?_
    · intro m' _ hm'
      refine sat_user hm' ?_
      apply sat_get
      split_ifs with hs
      · exact removeBy_sat hm' (fun e he hf hc => ⟨touch_start h hk (hm'.1.subset he) hc, aux _ m' hs e hf, hno⟩)
      · exact sat_pure ⟨rfl, hm'⟩
    · intro m' _ hm'
      refine sat_user hm' ?_
      apply sat_get
      split_ifs with hs
      · exact removeBy_sat hm' (fun e he hf hc => ⟨touch_end h hk (hm'.1.subset he) hc, aux _ m' hs e hf, hno⟩)
      · exact sat_pure ⟨rfl, hm'⟩
    · intro r m' hr
      refine sat_pure ?_
      unfold NoditMap.insertMergeTouchingIfValuesEqual
      rw [invalidIntervalPanic_ok hk, ho]
      simp only [bind, Except.bind, pure, Except.pure, if_neg hh, hr]

theorem insertMergeOverlapping_sat {k : K} {v : V} {m : NoditMap K V} (h : Chain m.inner) :
    Sat (insertMergeOverlapping k v) m (fun r m' => m.insertMergeOverlapping k v = .ok (m', r))
      (fun m' => Shrunk m m' (fun e => Overlap e.1 k)) (Invalid k m) := by
  unfold insertMergeOverlapping
  refine sat_user (Shrunk.refl _ _) ?_
  refine sat_check (fun hn => ⟨hn, rfl, rfl⟩) ?_
  intro hv
  refine sat_weaken (insertMergeWithComps_sat h (P := fun e => Overlap e.1 k) (removeStart' := fun m _ => m)
    (removeEnd' := fun m _ => m) (E := Invalid k m) (fun _ _ ho => ho) (fun hn => ⟨hn, rfl, rfl⟩)
    (fun m' _ hm' => sat_pure ⟨rfl, hm'⟩) (fun m' _ hm' => sat_pure ⟨rfl, hm'⟩)) ?_ (fun _ h => h) (fun _ _ h => h)
  intro r m' hr
  unfold NoditMap.insertMergeOverlapping
  rw [invalidIntervalPanic_ok (valid_iff.1 hv)]
  exact hr

theorem insertMergeTouchingOrOverlapping_sat {k : K} {v : V} {m : NoditMap K V} (h : Chain m.inner) :
    Sat (insertMergeTouchingOrOverlapping k v) m (fun r m' => m.insertMergeTouchingOrOverlapping k v = .ok (m', r))
      (fun m' => Shrunk m m' (fun e => Touch e.1 k ∨ Overlap e.1 k)) (Invalid k m) := by
  unfold insertMergeTouchingOrOverlapping
  refine sat_user (Shrunk.refl _ _) ?_
  refine sat_check (fun hn => ⟨hn, rfl, rfl⟩) ?_
  intro hv
  have hk := valid_iff.1 hv
  refine sat_weaken (insertMergeWithComps_sat h (P := fun e => Touch e.1 k ∨ Overlap e.1 k)
    (removeStart' := fun m _ => ⟨BTree.remove (touchingStartComp (start k)) m.inner⟩)
    (removeEnd' := fun m _ => ⟨BTree.remove (touchingEndComp (stop k)) m.inner⟩)
    (E := Invalid k m) (fun _ _ ho => Or.inr ho) (fun hn => ⟨hn, rfl, rfl⟩)
    (fun m' _ hm' => removeBy_sat hm' (fun e he _ hc => Or.inl (touch_start h hk (hm'.1.subset he) hc)))
    (fun m' _ hm' => removeBy_sat hm' (fun e he _ hc => Or.inl (touch_end h hk (hm'.1.subset he) hc)))) ?_
    (fun _ h => h) (fun _ _ h => h)
  intro r m' hr
  unfold NoditMap.insertMergeTouchingOrOverlapping
  rw [invalidIntervalPanic_ok hk]
  exact hr

theorem partlyCut_all {S : Set (K × V)} {q : Q} : PartlyCut S (CutRemaining S q) q := by
  refine ⟨{e | e ∈ S ∧ Overlap e.1 q}, ∅, ∅, Set.empty_subset _, by simp, by simp, ?_⟩
  ext x
  simp only [CutRemaining, Set.mem_union, Set.mem_ofPred_eq, Set.mem_empty_iff_false, or_false]
  constructor
  · rintro (⟨h1, h2⟩ | ⟨f, hf, ho, hi⟩)
    · exact Or.inl ⟨h1, fun h => h2 h.2⟩
    · exact Or.inr (Or.inr ⟨f, ⟨hf, ho⟩, ho, hi⟩)
  · rintro (⟨h1, h2⟩ | ⟨⟨h1, h2⟩, h3⟩ | ⟨f, ⟨hf, -⟩, ho, hi⟩)
    · exact Or.inl ⟨h1, fun h => h2 ⟨h1, h⟩⟩
    · exact absurd h2 h3
    · exact Or.inr ⟨f, hf, ho, hi⟩

theorem insertOverwrite_sat {k : K} {v : V} {m : NoditMap K V} (h : WF m.iter) :
    Sat (insertOverwrite k v) m (fun r m' => m.insertOverwrite k v = .ok (m', r))
      (fun m' => WF m'.iter ∧ PartlyCut m.entrySet m'.entrySet k) (Invalid k m) := by
  unfold insertOverwrite
  refine sat_user ⟨h, partlyCut_refl k⟩ ?_
  refine sat_check (fun hn => ⟨hn, rfl, rfl⟩) ?_
  intro hv
  refine sat_bind (cut_sat h (E := Invalid k m) (fun hn => ⟨hn, rfl, rfl⟩)) ?_
  rintro r m' ⟨hr, -⟩
  obtain ⟨m'', out, h1, h2, -, -, h3⟩ := C08_cut_exact h k hv
  rw [h1] at hr
  cases hr
  have h3' : m'.entrySet = CutRemaining m.entrySet k := Set.ext h3
  refine sat_bind (insertUnchecked_sat ⟨h2, h3' ▸ partlyCut_all⟩) ?_
  rintro - m₂ rfl
  refine sat_pure ?_
  unfold NoditMap.insertOverwrite
  rw [invalidIntervalPanic_ok (valid_iff.1 hv)]
  simp only [bind, Except.bind, pure, Except.pure, h1]

theorem step_sat [BEq V] {m : NoditMap K V} (h : WF m.iter) (op : Op I K V) :
    Sat (step op) m (fun o m' => m.step op = .ok (m', o))
      (fun m' => WF m'.iter ∧ CrashLeaves m.entrySet op m'.entrySet)
      (fun p m' => op.Bad ∧ p = .invalidInterval ∧ m' = m) := by
  have hc : Chain m.inner := wf_iff_chain.1 h
  have rest : ∀ {op : Op I K V}, (∀ S' : Set (K × V), CrashLeaves m.entrySet op S' = (S' = m.entrySet)) →
      step op = (do user; let m ← get; let (m', o) ← res (m.step op); set m'; pure o) →
      Sat (step op) m (fun o m' => m.step op = .ok (m', o))
      (fun m' => WF m'.iter ∧ CrashLeaves m.entrySet op m'.entrySet)
      (fun p m' => op.Bad ∧ p = .invalidInterval ∧ m' = m) := by
    intro op h1 h2
    rw [h2]
    refine sat_user ⟨h, by rw [h1]⟩ ?_
    apply sat_get
    rcases NoditMap.step_refines h op with ⟨hb, he⟩ | ⟨hb, m', o, ho, -⟩
    · refine sat_bind (Q := fun _ _ => False) ?_ (fun _ _ h => h.elim)
      intro n
      rw [he]
      exact ⟨hb, rfl, rfl⟩
    · refine sat_res ho ?_
      apply sat_set
      exact sat_pure ho
  cases op with
  | insertStrict k v =>
    refine sat_bind (sat_weaken (insertStrict_sat hc) (fun _ _ h => h) (fun m' e => by subst e; exact ⟨h, rfl⟩) (fun _ _ h => h)) ?_
    intro r m' hr
    refine sat_pure ?_
    simp only [NoditMap.step, hr]; rfl
  | insertMergeTouching k v =>
    refine sat_bind (sat_weaken (insertMergeTouching_sat hc) (fun _ _ h => h) (fun m' e => e.leaves h) (fun _ _ h => h)) ?_
    intro r m' hr
    refine sat_pure ?_
    simp only [NoditMap.step, hr]; rfl
  | insertMergeTouchingIfValuesEqual k v =>
    refine sat_bind (sat_weaken (insertMergeTouchingIfValuesEqual_sat hc) (fun _ _ h => h) (fun m' e => e.leaves h)
      (fun _ _ h => h)) ?_
    intro r m' hr
    refine sat_pure ?_
    simp only [NoditMap.step, hr]; rfl
  | insertMergeOverlapping k v =>
    refine sat_bind (sat_weaken (insertMergeOverlapping_sat hc) (fun _ _ h => h) (fun m' e => e.leaves h)
      (fun _ _ h => h)) ?_
    intro r m' hr
    refine sat_pure ?_
    simp only [NoditMap.step, hr]; rfl
  | insertMergeTouchingOrOverlapping k v =>
    refine sat_bind (sat_weaken (insertMergeTouchingOrOverlapping_sat hc) (fun _ _ h => h) (fun m' e => e.leaves h)
      (fun _ _ h => h)) ?_
    intro r m' hr
    refine sat_pure ?_
    simp only [NoditMap.step, hr]; rfl
  | insertOverwrite k v =>
    refine sat_bind (sat_weaken (insertOverwrite_sat h) (fun _ _ h => h) (fun m' e => e) (fun _ _ h => h)) ?_
    intro r m' hr
    refine sat_pure ?_
    simp only [NoditMap.step, hr]; rfl
  | cut q =>
    refine sat_bind (sat_weaken (cut_sat h (E := Invalid q m) (fun hn => ⟨hn, rfl, rfl⟩)) (fun _ _ h => h)
      (fun m' e => e) (fun _ _ h => h)) ?_
    intro r m' hr
    refine sat_pure ?_
    simp only [NoditMap.step, hr.1]; rfl
  | removeOverlapping q =>
    refine sat_bind (sat_weaken (removeOverlapping_sat hc (E := Invalid q m) (fun hn => ⟨hn, rfl, rfl⟩)) (fun _ _ h => h)
      (fun m' e => e.leaves h) (fun _ _ h => h)) ?_
    intro r m' hr
    refine sat_pure ?_
    simp only [NoditMap.step, hr.1]; rfl
  | _ => exact rest (fun _ => rfl) rfl

/-- A caught panic of user code as an outcome of the model of `Verif/History.lean` -/
theorem step_cases [BEq V] {m : NoditMap K V} (h : WF m.iter) (op : Op I K V) (n : Option Nat) :
    let r := step op m n
    (∃ o, r.1 = .ok o ∧ m.step op = .ok (r.2.1, o)) ∨
    (r.1 = .error (.crate .invalidInterval) ∧ op.Bad ∧ r.2.1 = m) ∨
    (r.1 = .error .user ∧ n ≠ none ∧ WF r.2.1.iter ∧ CrashLeaves m.entrySet op r.2.1.entrySet) := by
  have h := step_sat h op n
  revert h
  rcases step op m n with ⟨(e | o), m', n'⟩
  · cases e with
    | user => exact fun h => Or.inr (Or.inr ⟨rfl, h.2, h.1⟩)
    | crate p =>
      rintro ⟨h1, rfl, rfl⟩
      exact Or.inr (Or.inl ⟨rfl, h1, rfl⟩)
  · rintro ⟨h1, -⟩
    exact Or.inl ⟨o, rfl, h1⟩
end Crash

open Crash
variable {I K V : Type} [PointType I] [IntervalType I K] [LawfulPoint I] [LawfulInterval I K] [BEq V]

/-- **C78**: when no user code panics, the imperative transcription of the calls returns and leaves what the model used
for the other properties says. -/
theorem C78_undisturbed {m : NoditMap K V} (h : WF m.iter) (op : Op I K V) :
    (∀ m' o, m.step op = .ok (m', o) → (step op m none).1 = .ok o ∧ (step op m none).2.1 = m') ∧
    (∀ p, m.step op = .error p → (step op m none).1 = .error (.crate p) ∧ (step op m none).2.1 = m) := by
  rcases NoditMap.step_refines h op with ⟨hb, he⟩ | ⟨hb, m', o, ho, -⟩
  · rw [he]
    refine ⟨fun _ _ h => (nomatch h), ?_⟩
    rintro p ⟨⟩
    rcases step_cases h op none with ⟨o, -, h2⟩ | ⟨h1, -, h2⟩ | ⟨-, h2, -⟩
    · rw [he] at h2; cases h2
    · exact ⟨h1, h2⟩
    · exact absurd rfl h2
  · rw [ho]
    refine ⟨?_, fun _ h => (nomatch h)⟩
    intro m₁ o₁ e
    cases e
    rcases step_cases h op none with ⟨o', h1, h2⟩ | ⟨-, h1, -⟩ | ⟨-, h2, -⟩
    · rw [ho] at h2
      injection h2 with h2
      injection h2 with h2 h3
      subst h3
      exact ⟨h1, h2.symm⟩
    · exact absurd h1 hb
    · exact absurd rfl h2

/-- **C78**: wherever in a call user code panics, the map left behind has valid, ascending and disjoint entries, and
differs from the map before at most as `CrashLeaves` says. -/
theorem C78_crash_leaves {m : NoditMap K V} (h : WF m.iter) (op : Op I K V) (n : Option Nat)
    (hc : (step op m n).1 = .error .user) :
    WF (step op m n).2.1.iter ∧ CrashLeaves m.entrySet op (step op m n).2.1.entrySet := by
  rcases step_cases h op n with ⟨o, h1, -⟩ | ⟨h1, -⟩ | ⟨-, -, h2⟩
  · rw [h1] at hc; cases hc
  · rw [h1] at hc; cases hc
  · exact h2

theorem crash_run {m : NoditMap K V} (h : WF m.iter) (ops : List (Op I K V × Option Nat)) :
    WF (run m ops).1.iter ∧ CrashRun m.entrySet (ops.map Prod.fst) (run m ops).1.entrySet (run m ops).2 := by
  induction ops generalizing m with
  | nil => exact ⟨h, CrashRun.nil _⟩
  | cons x ops ih =>
    obtain ⟨op, n⟩ := x
    have key : WF (step op m n).2.1.iter ∧ CrashStep m.entrySet op (step op m n).2.1.entrySet (step op m n).1 := by
      rcases step_cases h op n with ⟨o, h1, h2⟩ | ⟨h1, hb, h2⟩ | ⟨h1, -, h2, h3⟩
      · rcases NoditMap.step_refines h op with ⟨hb, he⟩ | ⟨hb, m', o', ho, hw, hs⟩
        · rw [he] at h2; cases h2
        · rw [ho] at h2
          injection h2 with h2
          injection h2 with h2 h3
          subst h3
          rw [← h2, h1]
          exact ⟨hw, Or.inr ⟨hb, o', rfl, hs⟩⟩
      · rw [h1, h2]
        exact ⟨h, Or.inl ⟨hb, rfl, rfl⟩⟩
      · rw [h1]
        exact ⟨h2, h3⟩
    obtain ⟨h1, h2⟩ := ih key.1
    exact ⟨h1, CrashRun.cons key.2 h2⟩

/-- **C78**: any history of calls with any of them left by a panic of user code at any moment: the map stays well-formed,
and every call does what it should or, if it was interrupted, at most what `CrashLeaves` says. -/
theorem C78_history (ops : List (Op I K V × Option Nat)) :
    WF (run (NoditMap.new : NoditMap K V) ops).1.iter ∧
    CrashRun ∅ (ops.map Prod.fst) (run (NoditMap.new : NoditMap K V) ops).1.entrySet
      (run (NoditMap.new : NoditMap K V) ops).2 := by
  have := crash_run (I := I) (V := V) (K := K) wf_new ops
  have e : (NoditMap.new : NoditMap K V).entrySet = ∅ := by ext x; simp [NoditMap.entrySet, NoditMap.new, NoditMap.iter]
  rwa [e] at this

omit [LawfulInterval I K] in
theorem run_of_fromIterStrict {m m' : NoditMap K V} {l : List (K × V)}
    (h : NoditMap.fromIterStrictFrom m l = .ok (.ok m')) :
    (m.run (l.map (fun e => (Op.insertStrict e.1 e.2 : Op I K V)))).1 = m' := by
  induction l generalizing m with
  | nil => cases h; rfl
  | cons e l ih =>
    obtain ⟨k, v⟩ := e
    unfold NoditMap.fromIterStrictFrom at h
    simp only [List.map_cons, NoditMap.run, NoditMap.step]
    cases hi : m.insertStrict k v with
    | error p => rw [hi] at h; cases h
    | ok x =>
      obtain ⟨m₁, (e | u)⟩ := x
      · rw [hi] at h; cases h
      · rw [hi] at h
        exact ih h

/-- **C78**: the map left by a history with panics could have been built without any: it is the result of inserting its
entries into a fresh map. So all the other properties hold of it. -/
theorem C78_as_if_built (ops : List (Op I K V × Option Nat)) :
    NoditMap.Reachable (I := I) (run (NoditMap.new : NoditMap K V) ops).1 ∧
    NoditMap.fromIterStrict (run (NoditMap.new : NoditMap K V) ops).1.intoIter =
      .ok (.ok (run (NoditMap.new : NoditMap K V) ops).1) := by
  have := C58_rebuild (C78_history (K := K) ops).1 (List.Perm.refl _)
  exact ⟨⟨_, run_of_fromIterStrict this⟩, this⟩

theorem partlyCut_sub {S S' : Set (K × V)} {Q : Type} [IntervalType I Q] {q : Q} (h : PartlyCut S S' q) :
    (∀ e ∈ S', ∃ f ∈ S, e.2 = f.2 ∧ ∀ p, Mem p e.1 → Mem p f.1) ∧ (∀ e ∈ S, e ∉ S' → Overlap e.1 q) := by
  obtain ⟨done, doing, part, hp, h1, -, rfl⟩ := h
  have hcut : ∀ T : Set (K × V), (∀ e ∈ T, e ∈ S) → ∀ e ∈ CutRemaining T q, ∃ f ∈ S, e.2 = f.2 ∧ ∀ p, Mem p e.1 → Mem p f.1 := by
    rintro T hT e (⟨he, -⟩ | ⟨f, hf, -, i, rfl, hi⟩)
    · exact ⟨e, hT e he, rfl, fun _ h => h⟩
    · refine ⟨f, hT f hf, rfl, fun p hp => ?_⟩
      have hp' : Mem p i := by simp only [Mem, LawfulInterval.start_of, LawfulInterval.stop_of] at hp; exact hp
      rcases hi with hi | hi
      · exact ((hi.2 p).1 hp').1
      · exact ((hi.2 p).1 hp').1
  refine ⟨?_, ?_⟩
  · rintro e ((⟨he, -⟩ | he) | he)
    · exact ⟨e, he, rfl, fun _ h => h⟩
    · exact hcut done (fun d hd => (h1 d (Or.inl hd)).1) e he
    · exact hcut doing (fun d hd => (h1 d (Or.inr hd)).1) e (hp he)
  · intro e he he'
    by_cases hd : e ∈ done ∪ doing
    · exact (h1 e hd).2
    · exact absurd (Or.inl (Or.inl ⟨he, hd⟩)) he'

theorem losesOnly_sub {S S' : Set (K × V)} {P : K × V → Prop} (h : LosesOnly S S' P) :
    (∀ e ∈ S', ∃ f ∈ S, e.2 = f.2 ∧ ∀ p, Mem p e.1 → Mem p f.1) ∧ (∀ e ∈ S, e ∉ S' → P e) :=
  ⟨fun e he => ⟨e, h.1 he, rfl, fun _ h => h⟩, h.2⟩

theorem crashLeaves_sub {S S' : Set (K × V)} {op : Op I K V} (h : CrashLeaves S op S') :
    (∀ e ∈ S', ∃ f ∈ S, e.2 = f.2 ∧ ∀ p, Mem p e.1 → Mem p f.1) ∧ (∀ e ∈ S, e ∉ S' → op.Near e) := by
  have same : S' = S →
      (∀ e ∈ S', ∃ f ∈ S, e.2 = f.2 ∧ ∀ p, Mem p e.1 → Mem p f.1) ∧ (∀ e ∈ S, e ∉ S' → op.Near e) := by
    rintro rfl
    exact ⟨fun e he => ⟨e, he, rfl, fun _ h => h⟩, fun e he he' => absurd he he'⟩
  cases op with
  | insertMergeTouching k v => exact ⟨(losesOnly_sub h).1, fun e he he' => Or.inr ((losesOnly_sub h).2 e he he').1⟩
  | insertMergeTouchingIfValuesEqual k v =>
    exact ⟨(losesOnly_sub h).1, fun e he he' => Or.inr ((losesOnly_sub h).2 e he he').1⟩
  | insertMergeOverlapping k v => exact ⟨(losesOnly_sub h).1, fun e he he' => Or.inl ((losesOnly_sub h).2 e he he')⟩
  | insertMergeTouchingOrOverlapping k v =>
    exact ⟨(losesOnly_sub h).1, fun e he he' => ((losesOnly_sub h).2 e he he').symm⟩
  | insertOverwrite k v => exact ⟨(partlyCut_sub h).1, fun e he he' => Or.inl ((partlyCut_sub h).2 e he he')⟩
  | cut q => exact ⟨(partlyCut_sub h).1, fun e he he' => Or.inl ((partlyCut_sub h).2 e he he')⟩
  | removeOverlapping q => exact ⟨(losesOnly_sub h).1, fun e he he' => Or.inl ((losesOnly_sub h).2 e he he')⟩
  | _ => exact same h

/-- **C78**: no panic of user code makes a value appear where it was not before the call, and every entry that neither
overlaps nor touches the argument of the call is still there. -/
theorem C78_nothing_invented {m : NoditMap K V} (h : WF m.iter) (op : Op I K V) (n : Option Nat)
    (hc : (step op m n).1 = .error .user) :
    (∀ p v, (∃ k, (k, v) ∈ (step op m n).2.1.iter ∧ Mem p k) → ∃ k, (k, v) ∈ m.iter ∧ Mem p k) ∧
    (∀ e ∈ m.iter, ¬ op.Near e → e ∈ (step op m n).2.1.iter) := by
  obtain ⟨h1, h2⟩ := crashLeaves_sub (C78_crash_leaves h op n hc).2
  refine ⟨?_, fun e he hn => by_contra fun h' => hn (h2 e he h')⟩
  rintro p v ⟨k, hk, hp⟩
  obtain ⟨⟨k', v'⟩, hf, hv, hm⟩ := h1 (k, v) hk
  cases hv
  exact ⟨k', hf, hm p hp⟩

/-- what the caller sees of a call on `Demo.m` in which user code panics after running `n` times: did the panic happen,
and which entries are left -/
def crashed (op : Op Demo.U8 (Interval Demo.U8) Nat) (n : Nat) : Bool × List (Interval Demo.U8 × Nat) :=
  ((match (step op Demo.m (some n)).1 with | .error .user => true | _ => false), (step op Demo.m (some n)).2.1.iter)

/-- **C78**: the entry being cut can be lost together with its parts outside the cut: `cut(11..=251)` on a map with
`10..=12`, interrupted between removing that entry and putting back `10..=10` (by `clone()` of the value, say), loses the
value of the point `10`. Later, the same call leaves the cut half done. -/
theorem C78_point_outside_the_cut_can_be_lost :
    crashed (.cut (Demo.iv 11 251)) 4 = (true,
      [(Demo.iv 0 1, 7), (Demo.iv 3 4, 7), (Demo.iv 13 15, 9), (Demo.iv 16 20, 8), (Demo.iv 250 255, 1)]) ∧
    crashed (.cut (Demo.iv 11 251)) 9 = (true,
      [(Demo.iv 0 1, 7), (Demo.iv 3 4, 7), (Demo.iv 10 10, 8), (Demo.iv 16 20, 8), (Demo.iv 250 255, 1)]) ∧
    crashed (.cut (Demo.iv 11 251)) 16 = (false,
      [(Demo.iv 0 1, 7), (Demo.iv 3 4, 7), (Demo.iv 10 10, 8), (Demo.iv 252 255, 1)]) := by decide

end Nodit
