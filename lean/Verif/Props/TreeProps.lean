import Verif.Tree
import Verif.Lemmas.ZosditRun
import Verif.Lemmas.Refine
import Verif.Props.MapProps
import Verif.Props.ZosditProps
/-!
# C50: the shape of the tree does not matter

For a comparator that answers `gt`, then at most once `eq`, then `lt` along the in-order sequence, every search tree
with that sequence gives the result of the flat sequence (`Verif/BTree.lean`); and the comparators the crate uses are
of this kind on every well-formed map.
-/
set_option linter.unusedSectionVars false
namespace Nodit.BTree

section
variable {α : Type}

/-- along the sequence: `gt`s, then possibly an `eq`, then `lt`s -/
def Mono (comp : α → Ordering) (l : List α) : Prop := l.Pairwise (fun a b => comp a = .gt ∨ comp b = .lt)

/-- along the sequence: `gt`s, then `eq`s, then `lt`s -/
def WeakMono (comp : α → Ordering) (l : List α) : Prop :=
  l.Pairwise (fun a b => comp a = .gt ∨ comp b = .lt ∨ (comp a = .eq ∧ comp b = .eq))

theorem Mono.weak {comp : α → Ordering} {l : List α} (h : Mono comp l) : WeakMono comp l :=
  List.Pairwise.imp (fun h => h.elim Or.inl (fun h => Or.inr (Or.inl h))) h

/-- what the position says about the sequence -/
def Pos.Ok (comp : α → Ordering) (l : List α) : Pos α → Prop
  | .found b e a => l = b ++ e :: a ∧ comp e = .eq
  | .edge b a => l = b ++ a ∧ (∀ x ∈ b, comp x = .gt) ∧ ∀ x ∈ a, comp x = .lt

mutual
theorem search_ok {comp : α → Ordering} (t : Tree α) (h : WeakMono comp t.toList) : (t.search comp).Ok comp t.toList := by
  match t with
  | .empty => exact ⟨rfl, by simp, by simp⟩
  | .node first rest =>
    rw [Tree.toList, WeakMono, List.pairwise_append] at h
    obtain ⟨h1, h2, h3⟩ := h
    exact scan_ok rest (search_ok first h1) h2 h3 h1
theorem scan_ok {comp : α → Ordering} {below : Pos α} {left : List α} (r : Edges α) (hb : below.Ok comp left)
    (h : WeakMono comp r.toList) (hlr : ∀ a ∈ left, ∀ b ∈ r.toList, comp a = .gt ∨ comp b = .lt ∨ (comp a = .eq ∧ comp b = .eq))
    (hl : WeakMono comp left) : (r.scan comp below left).Ok comp (left ++ r.toList) := by
  match r with
  | .nil => simpa [Edges.toList, Edges.scan] using hb
  | .cons e child rest =>
    rw [Edges.toList, WeakMono, List.pairwise_cons, List.pairwise_append] at h
    obtain ⟨h1, h2, h3, h4⟩ := h
    rw [Edges.scan]
    split
    · next hc =>
      have hleft : ∀ a ∈ left, comp a = .gt := by
        intro a ha
        rcases hlr a ha e (by simp [Edges.toList]) with h | h | h
        · exact h
        · rw [hc] at h; cases h
        · rw [hc] at h; cases h.2
      have := scan_ok rest (search_ok child h2) h3 h4 h2
      generalize rest.scan comp (child.search comp) child.toList = p at *
      cases p with
      | found b x a =>
        obtain ⟨p1, p2⟩ := this
        exact ⟨by simp [Edges.toList, p1], p2⟩
      | edge b a =>
        obtain ⟨p1, p2, p3⟩ := this
        refine ⟨by simp [Edges.toList, p1], ?_, by simpa using p3⟩
        intro x hx
        simp only [List.mem_append, List.mem_singleton] at hx
        rcases hx with (hx | rfl) | hx
        · exact hleft x hx
        · exact hc
        · exact p2 x hx
    · next hc => exact ⟨by simp [Edges.toList], hc⟩
    · next hc =>
      have hright : ∀ b ∈ child.toList ++ rest.toList, comp b = .lt := by
        intro b hb
        rcases h1 b hb with h | h | h
        · rw [hc] at h; cases h
        · exact h
        · rw [hc] at h; cases h.1
      cases below with
      | found b x a =>
        obtain ⟨p1, p2⟩ := hb
        exact ⟨by simp [Edges.toList, p1], p2⟩
      | edge b a =>
        obtain ⟨p1, p2, p3⟩ := hb
        refine ⟨by simp [Edges.toList, p1], by simpa using p2, ?_⟩
        intro x hx
        simp only [List.mem_append, List.mem_cons] at hx
        rcases hx with hx | rfl | hx | hx
        · exact p3 x hx
        · exact hc
        · exact hright x (by simp [hx])
        · exact hright x (by simp [hx])
end

theorem takeWhile_dropWhile_split {P : α → Bool} {b a : List α} (hb : ∀ x ∈ b, P x = true) (ha : ∀ x ∈ a.head?, P x = false) :
    (b ++ a).takeWhile P = b ∧ (b ++ a).dropWhile P = a := by
  have h1 : a.takeWhile P = [] ∧ a.dropWhile P = a := by
    cases a with
    | nil => exact ⟨rfl, rfl⟩
    | cons x a => simp [ha x (by simp)]
  rw [List.takeWhile_append_of_pos hb, List.dropWhile_append_of_pos hb, h1.1, h1.2]
  simp

mutual
theorem lowerEdge_ok {comp : α → Ordering} (t : Tree α) (h : Mono comp t.toList) :
    t.toList = (t.lowerEdge comp).1 ++ (t.lowerEdge comp).2 ∧ (∀ x ∈ (t.lowerEdge comp).1, comp x = .gt) ∧
      ∀ x ∈ (t.lowerEdge comp).2, comp x ≠ .gt := by
  match t with
  | .empty => exact ⟨rfl, by simp [Tree.lowerEdge], by simp [Tree.lowerEdge]⟩
  | .node first rest =>
    rw [Tree.toList, Mono, List.pairwise_append] at h
    obtain ⟨h1, h2, h3⟩ := h
    exact lowerScan_ok rest (lowerEdge_ok first h1) h2 h3
theorem lowerScan_ok {comp : α → Ordering} {below : List α × List α} {left : List α} (r : Edges α)
    (hb : left = below.1 ++ below.2 ∧ (∀ x ∈ below.1, comp x = .gt) ∧ ∀ x ∈ below.2, comp x ≠ .gt)
    (h : Mono comp r.toList) (hlr : ∀ a ∈ left, ∀ b ∈ r.toList, comp a = .gt ∨ comp b = .lt) :
    left ++ r.toList = (r.lowerScan comp below left).1 ++ (r.lowerScan comp below left).2 ∧
      (∀ x ∈ (r.lowerScan comp below left).1, comp x = .gt) ∧ ∀ x ∈ (r.lowerScan comp below left).2, comp x ≠ .gt := by
  match r with
  | .nil => simpa [Edges.toList, Edges.lowerScan] using hb
  | .cons e child rest =>
    rw [Edges.toList, Mono, List.pairwise_cons, List.pairwise_append] at h
    obtain ⟨h1, h2, h3, h4⟩ := h
    have hleft : comp e ≠ .lt → ∀ a ∈ left, comp a = .gt := fun hc a ha =>
      (hlr a ha e (by simp [Edges.toList])).resolve_right hc
    have hright : comp e ≠ .gt → ∀ b ∈ child.toList ++ rest.toList, comp b = .lt := fun hc b hb =>
      (h1 b hb).resolve_left hc
    rw [Edges.lowerScan]
    split
    · next hc =>
      obtain ⟨p1, p2, p3⟩ := lowerScan_ok rest (lowerEdge_ok child h2) h3 h4
      refine ⟨by simp [Edges.toList, p1], ?_, p3⟩
      intro x hx
      simp only [List.mem_append, List.mem_cons] at hx
      rcases hx with hx | rfl | hx
      · exact hleft (by simp [hc]) x hx
      · exact hc
      · exact p2 x hx
    · next hc =>
      refine ⟨by simp [Edges.toList], hleft (by simp [hc]), ?_⟩
      intro x hx
      simp only [List.mem_cons] at hx
      rcases hx with rfl | hx
      · simp [hc]
      · simp [hright (by simp [hc]) x hx]
    · next hc =>
      obtain ⟨p1, p2, p3⟩ := hb
      refine ⟨by simp [Edges.toList, p1], p2, ?_⟩
      intro x hx
      rcases List.mem_append.1 hx with hx | hx
      · exact p3 x hx
      · rcases List.mem_cons.1 hx with rfl | hx
        · simp [hc]
        · simp [hright (by simp [hc]) x hx]
end

mutual
theorem upperEdge_ok {comp : α → Ordering} (t : Tree α) (h : Mono comp t.toList) :
    t.toList = (t.upperEdge comp).1 ++ (t.upperEdge comp).2 ∧ (∀ x ∈ (t.upperEdge comp).1, comp x ≠ .lt) ∧
      ∀ x ∈ (t.upperEdge comp).2, comp x = .lt := by
  match t with
  | .empty => exact ⟨rfl, by simp [Tree.upperEdge], by simp [Tree.upperEdge]⟩
  | .node first rest =>
    rw [Tree.toList, Mono, List.pairwise_append] at h
    obtain ⟨h1, h2, h3⟩ := h
    exact upperScan_ok rest (upperEdge_ok first h1) h2 h3
theorem upperScan_ok {comp : α → Ordering} {below : List α × List α} {left : List α} (r : Edges α)
    (hb : left = below.1 ++ below.2 ∧ (∀ x ∈ below.1, comp x ≠ .lt) ∧ ∀ x ∈ below.2, comp x = .lt)
    (h : Mono comp r.toList) (hlr : ∀ a ∈ left, ∀ b ∈ r.toList, comp a = .gt ∨ comp b = .lt) :
    left ++ r.toList = (r.upperScan comp below left).1 ++ (r.upperScan comp below left).2 ∧
      (∀ x ∈ (r.upperScan comp below left).1, comp x ≠ .lt) ∧ ∀ x ∈ (r.upperScan comp below left).2, comp x = .lt := by
  match r with
  | .nil => simpa [Edges.toList, Edges.upperScan] using hb
  | .cons e child rest =>
    rw [Edges.toList, Mono, List.pairwise_cons, List.pairwise_append] at h
    obtain ⟨h1, h2, h3, h4⟩ := h
    have hleft : comp e ≠ .lt → ∀ a ∈ left, comp a = .gt := fun hc a ha =>
      (hlr a ha e (by simp [Edges.toList])).resolve_right hc
    have hright : comp e ≠ .gt → ∀ b ∈ child.toList ++ rest.toList, comp b = .lt := fun hc b hb =>
      (h1 b hb).resolve_left hc
    rw [Edges.upperScan]
    split
    · next hc =>
      obtain ⟨p1, p2, p3⟩ := upperScan_ok rest (upperEdge_ok child h2) h3 h4
      refine ⟨by simp [Edges.toList, p1], ?_, p3⟩
      intro x hx
      simp only [List.mem_append, List.mem_cons] at hx
      rcases hx with hx | rfl | hx
      · simp [hleft (by simp [hc]) x hx]
      · simp [hc]
      · exact p2 x hx
    · next hc =>
      refine ⟨by simp [Edges.toList], ?_, hright (by simp [hc])⟩
      intro x hx
      rcases List.mem_append.1 hx with hx | hx
      · simp [hleft (by simp [hc]) x hx]
      · rw [List.mem_singleton] at hx; subst hx; simp [hc]
    · next hc =>
      obtain ⟨p1, p2, p3⟩ := hb
      refine ⟨by simp [Edges.toList, p1], p2, ?_⟩
      intro x hx
      rcases List.mem_append.1 hx with hx | hx
      · exact p3 x hx
      · rcases List.mem_cons.1 hx with rfl | hx
        · exact hc
        · exact hright (by simp [hc]) x hx
end

/-- the flat range -/
def flatRange (lower upper : α → Ordering) (l : List α) : List α :=
  (l.dropWhile (fun e => lower e == .gt)).takeWhile (fun e => upper e != .lt)

theorem lowerEdge_eq {comp : α → Ordering} (t : Tree α) (h : Mono comp t.toList) :
    t.lowerEdge comp = (t.toList.takeWhile (fun e => comp e == .gt), t.toList.dropWhile (fun e => comp e == .gt)) := by
  obtain ⟨h1, h2, h3⟩ := lowerEdge_ok t h
  obtain ⟨h4, h5⟩ := takeWhile_dropWhile_split (P := fun e => comp e == .gt) (b := (t.lowerEdge comp).1) (a := (t.lowerEdge comp).2)
    (fun x hx => by simp [h2 x hx]) (fun x hx => by simpa using h3 x (List.mem_of_mem_head? hx))
  rw [h1, h4, h5]

theorem upperEdge_eq {comp : α → Ordering} (t : Tree α) (h : Mono comp t.toList) :
    t.upperEdge comp = (t.toList.takeWhile (fun e => comp e != .lt), t.toList.dropWhile (fun e => comp e != .lt)) := by
  obtain ⟨h1, h2, h3⟩ := upperEdge_ok t h
  obtain ⟨h4, h5⟩ := takeWhile_dropWhile_split (P := fun e => comp e != .lt) (b := (t.upperEdge comp).1) (a := (t.upperEdge comp).2)
    (fun x hx => by simpa using h2 x hx) (fun x hx => by simp [h3 x (List.mem_of_mem_head? hx)])
  rw [h1, h4, h5]

theorem upperScan_eq {comp : α → Ordering} (child : Tree α) (rest : Edges α) (h1 : Mono comp child.toList) (h2 : Mono comp rest.toList)
    (h3 : ∀ a ∈ child.toList, ∀ b ∈ rest.toList, comp a = .gt ∨ comp b = .lt) :
    (rest.upperScan comp (child.upperEdge comp) child.toList).1 = (child.toList ++ rest.toList).takeWhile (fun e => comp e != .lt) := by
  obtain ⟨g1, g2, g3⟩ := upperScan_ok rest (upperEdge_ok child h1) h2 h3
  obtain ⟨h4, h5⟩ := takeWhile_dropWhile_split (P := fun e => comp e != .lt) (b := (rest.upperScan comp (child.upperEdge comp) child.toList).1)
    (a := (rest.upperScan comp (child.upperEdge comp) child.toList).2)
    (fun x hx => by simpa using g2 x hx) (fun x hx => by simp [g3 x (List.mem_of_mem_head? hx)])
  rw [g1, h4]

mutual
theorem range_ok {lower upper : α → Ordering} (t : Tree α) (hl : Mono lower t.toList) (hu : Mono upper t.toList) :
    t.range lower upper = flatRange lower upper t.toList := by
  match t with
  | .empty => rfl
  | .node first rest =>
    rw [Tree.toList, Mono, List.pairwise_append] at hl hu
    obtain ⟨h1, h2, h3⟩ := hl
    obtain ⟨g1, g2, g3⟩ := hu
    exact rangeScan_ok rest (range_ok first h1 g1) (by rw [lowerEdge_eq first h1]) h1 g1 h2 g2 h3 g3
theorem rangeScan_ok {lower upper : α → Ordering} {both fromLower left : List α} (r : Edges α)
    (hb : both = flatRange lower upper left) (hf : fromLower = left.dropWhile (fun e => lower e == .gt))
    (_hl1 : Mono lower left) (_hu1 : Mono upper left) (hl : Mono lower r.toList) (hu : Mono upper r.toList)
    (hlr : ∀ a ∈ left, ∀ b ∈ r.toList, lower a = .gt ∨ lower b = .lt)
    (hur : ∀ a ∈ left, ∀ b ∈ r.toList, upper a = .gt ∨ upper b = .lt) :
    r.rangeScan lower upper both fromLower = flatRange lower upper (left ++ r.toList) := by
  match r with
  | .nil => simpa [Edges.toList, Edges.rangeScan] using hb
  | .cons e child rest =>
    rw [Edges.toList, Mono, List.pairwise_cons, List.pairwise_append] at hl hu
    obtain ⟨h1, h2, h3, h4⟩ := hl
    obtain ⟨g1, g2, g3, g4⟩ := hu
    have hleft : lower e ≠ .lt → ∀ a ∈ left, lower a = .gt := fun hc a ha =>
      (hlr a ha e (by simp [Edges.toList])).resolve_right hc
    have hleftu : upper e ≠ .lt → ∀ a ∈ left, upper a = .gt := fun hc a ha =>
      (hur a ha e (by simp [Edges.toList])).resolve_right hc
    have hrightu : upper e ≠ .gt → ∀ b ∈ child.toList ++ rest.toList, upper b = .lt := fun hc b hb =>
      (g1 b hb).resolve_left hc
    have hne : ∀ l : List α, (∀ b ∈ l, upper b = .lt) → l.takeWhile (fun e => upper e != .lt) = [] := by
      intro l hl
      cases l with
      | nil => rfl
      | cons x l => simp [hl x (by simp)]
    rw [Edges.rangeScan, Edges.toList]
    split
    · next hc =>
      rw [rangeScan_ok rest (range_ok child h2 g2) (by rw [lowerEdge_eq child h2]) h2 g2 h3 g3 h4 g4]
      unfold flatRange
      conv_rhs => rw [List.dropWhile_append_of_pos (fun x hx => by simp [hleft (by simp [hc]) x hx]),
        List.dropWhile_cons_of_pos (p := fun e => lower e == .gt) (by simp [hc])]
    · next hc =>
      unfold flatRange
      rw [List.dropWhile_append_of_pos (fun x hx => by simp [hleft (by simp [hc]) x hx]),
        List.dropWhile_cons_of_neg (p := fun e => lower e == .gt) (by simp [hc])]
      split
      · next hc' => rw [List.takeWhile_cons_of_neg (p := fun e => upper e != .lt) (by simp [hc'])]
      · next hc' =>
        rw [List.takeWhile_cons_of_pos (p := fun e => upper e != .lt) (by simp [hc']), hne _ (hrightu (by simp [hc']))]
      · next hc' =>
        rw [List.takeWhile_cons_of_pos (p := fun e => upper e != .lt) (by simp [hc']), upperScan_eq child rest g2 g3 g4]
    · next hc =>
      have hdrop : (left ++ e :: (child.toList ++ rest.toList)).dropWhile (fun e => lower e == .gt)
          = left.dropWhile (fun e => lower e == .gt) ++ e :: (child.toList ++ rest.toList) := by
        rw [List.dropWhile_append]
        split
        · next he =>
          rw [List.isEmpty_iff] at he
          rw [he, List.dropWhile_cons_of_neg (p := fun e => lower e == .gt) (by simp [hc])]; rfl
        · rfl
      unfold flatRange at hb ⊢
      rw [hdrop, ← hf]
      rw [← hf] at hb
      have hfu : upper e ≠ .lt → ∀ x ∈ fromLower, (upper x != .lt) = true := by
        intro hc' x hx
        rw [hf] at hx
        simp [hleftu hc' x (List.dropWhile_subset _ hx)]
      split
      · next hc' =>
        rw [hb, List.takeWhile_append]
        split
        · next he =>
          rw [List.takeWhile_cons_of_neg (p := fun e => upper e != .lt) (by simp [hc']), List.append_nil]
          exact List.IsPrefix.eq_of_length (List.takeWhile_prefix _) he
        · rfl
      · next hc' =>
        rw [List.takeWhile_append_of_pos (hfu (by simp [hc'])), List.takeWhile_cons_of_pos (p := fun e => upper e != .lt) (by simp [hc']),
          hne _ (hrightu (by simp [hc']))]
      · next hc' =>
        rw [List.takeWhile_append_of_pos (hfu (by simp [hc'])), List.takeWhile_cons_of_pos (p := fun e => upper e != .lt) (by simp [hc']),
          upperScan_eq child rest g2 g3 g4]
end
end

theorem pos_unique {α : Type} {comp : α → Ordering} {l : List α} (hm : Mono comp l) {p p' : Pos α} (h : p.Ok comp l) (h' : p'.Ok comp l) :
    p = p' := by
  have foundEq : ∀ {b e a}, l = b ++ e :: a → comp e = .eq → (∀ x ∈ b, comp x = .gt) ∧ ∀ x ∈ a, comp x = .lt := by
    intro b e a h1 h2
    unfold Mono at hm
    rw [h1, List.pairwise_append, List.pairwise_cons] at hm
    exact ⟨fun x hx => (hm.2.2 x hx e (by simp)).resolve_right (by rw [h2]; simp),
      fun x hx => (hm.2.1.1 x hx).resolve_left (by rw [h2]; simp)⟩
  have tw : ∀ {b a : List α}, (∀ x ∈ b, comp x = .gt) → (∀ x ∈ a.head?, comp x ≠ .gt) → l = b ++ a →
      b = l.takeWhile (fun e => comp e == .gt) ∧ a = l.dropWhile (fun e => comp e == .gt) := by
    intro b a h1 h2 h3
    have := takeWhile_dropWhile_split (P := fun e => comp e == .gt) (b := b) (a := a) (fun x hx => by simp [h1 x hx])
      (fun x hx => by simpa using h2 x hx)
    rw [h3]; exact ⟨this.1.symm, this.2.symm⟩
  cases p with
  | found b e a =>
    obtain ⟨h1, h2⟩ := h
    obtain ⟨f1, f2⟩ := foundEq h1 h2
    obtain ⟨t1, t2⟩ := tw f1 (by simp [h2]) h1
    cases p' with
    | found b' e' a' =>
      obtain ⟨g1, g2⟩ := h'
      obtain ⟨f1', f2'⟩ := foundEq g1 g2
      obtain ⟨t1', t2'⟩ := tw f1' (by simp [g2]) g1
      rw [← t2] at t2'
      obtain ⟨rfl, rfl⟩ := List.cons.inj t2'
      rw [t1, t1']
    | edge b' a' =>
      obtain ⟨g1, g2, g3⟩ := h'
      have : e ∈ b' ++ a' := by rw [← g1, h1]; simp
      rcases List.mem_append.1 this with h | h
      · rw [g2 e h] at h2; cases h2
      · rw [g3 e h] at h2; cases h2
  | edge b a =>
    obtain ⟨h1, h2, h3⟩ := h
    cases p' with
    | found b' e' a' =>
      obtain ⟨g1, g2⟩ := h'
      have : e' ∈ b ++ a := by rw [← h1, g1]; simp
      rcases List.mem_append.1 this with h | h
      · rw [h2 e' h] at g2; cases g2
      · rw [h3 e' h] at g2; cases g2
    | edge b' a' =>
      obtain ⟨g1, g2, g3⟩ := h'
      obtain ⟨t1, t2⟩ := tw h2 (fun x hx => by simp [h3 x (List.mem_of_mem_head? hx)]) h1
      obtain ⟨t1', t2'⟩ := tw g2 (fun x hx => by simp [g3 x (List.mem_of_mem_head? hx)]) g1
      rw [t1, t2, t1', t2']

/-! ## The operations of `Verif/BTree.lean` as edits where the tree search ends -/

section
variable {K V : Type}

theorem find_found {comp : K → Ordering} {b a : List (K × V)} {e : K × V} (hb : ∀ x ∈ b, comp x.1 = .gt) (he : comp e.1 = .eq)
    (k : K) (v : V) (f : K → V → V) :
    find comp (b ++ e :: a) = some e ∧ remove comp (b ++ e :: a) = b ++ a ∧
      modify comp f (b ++ e :: a) = b ++ (e.1, f e.1 e.2) :: a ∧ insert comp k v (b ++ e :: a) = b ++ (e.1, v) :: a := by
  induction b with
  | nil => simp [find, remove, modify, insert, he]
  | cons x b ih =>
    obtain ⟨h1, h2, h3, h4⟩ := ih (fun y hy => hb y (by simp [hy]))
    simp [find, remove, modify, insert, hb x (by simp), h1, h2, h3, h4]

theorem find_edge {comp : K → Ordering} {b a : List (K × V)} (hb : ∀ x ∈ b, comp x.1 = .gt) (ha : ∀ x ∈ a, comp x.1 = .lt)
    (k : K) (v : V) (f : K → V → V) :
    find comp (b ++ a) = none ∧ remove comp (b ++ a) = b ++ a ∧
      modify comp f (b ++ a) = b ++ a ∧ insert comp k v (b ++ a) = b ++ (k, v) :: a := by
  induction b with
  | nil =>
    cases a with
    | nil => simp [find, remove, modify, insert]
    | cons x a => simp [find, remove, modify, insert, ha x (by simp)]
  | cons x b ih =>
    obtain ⟨h1, h2, h3, h4⟩ := ih (fun y hy => hb y (by simp [hy]))
    have hx := hb x (by simp)
    simp only [List.cons_append]
    simp [find, remove, modify, insert, hx, h1, h2, h3, h4]

/-- Everything the crate asks of the container gives on the tree what it gives on the flat sequence. -/
structure Agrees (t : Tree (K × V)) (comp : K → Ordering) : Prop where
  find : find comp t.toList = (t.search (onKey comp)).lookup
  remove : remove comp t.toList = (t.search (onKey comp)).removed
  modify : ∀ f, modify comp f t.toList = (t.search (onKey comp)).modified f
  insert : ∀ k v, insert comp k v t.toList = (t.search (onKey comp)).inserted k v
  lower : lowerBound comp t.toList = cursorAfter (t.lowerEdge (onKey comp))
  upper : upperBound comp t.toList = cursorBefore (t.upperEdge (onKey comp))

theorem agrees {comp : K → Ordering} (t : Tree (K × V)) (h : Mono (onKey comp) t.toList) : Agrees t comp := by
  have hs := search_ok t h.weak
  have key : ∀ k v f, BTree.find comp t.toList = (t.search (onKey comp)).lookup ∧ BTree.remove comp t.toList = (t.search (onKey comp)).removed ∧
      BTree.modify comp f t.toList = (t.search (onKey comp)).modified f ∧ BTree.insert comp k v t.toList = (t.search (onKey comp)).inserted k v := by
    intro k v f
    generalize t.search (onKey comp) = p at hs
    cases p with
    | found b e a =>
      obtain ⟨h1, h2⟩ := hs
      rw [h1]
      refine find_found (fun x hx => ?_) h2 k v f
      unfold Mono at h
      rw [h1, List.pairwise_append] at h
      exact (h.2.2 x hx e (by simp)).resolve_right (by rw [h2]; simp)
    | edge b a =>
      obtain ⟨h1, h2, h3⟩ := hs
      rw [h1]
      exact find_edge h2 h3 k v f
  refine ⟨?_, ?_, ?_, fun k v => ?_, ?_, ?_⟩
  · rcases hp : t.search (onKey comp) with ⟨b, e, a⟩ | ⟨b, a⟩
    · rw [hp] at key; exact (key e.1 e.2 (fun _ v => v)).1
    · rw [hp] at hs
      obtain ⟨h1, h2, h3⟩ := hs
      rw [h1]
      clear key hp h
      show BTree.find comp (b ++ a) = none
      clear h1
      induction b with
      | nil => cases a with
        | nil => rfl
        | cons x a => simp [BTree.find, show comp x.1 = .lt from h3 x (by simp)]
      | cons x b ih =>
        simp only [List.cons_append, BTree.find, show comp x.1 = .gt from h2 x (by simp)]
        exact ih (fun y hy => h2 y (by simp [hy]))
  · rcases hl : t.toList with _ | ⟨x, l⟩
    · rcases hp : t.search (onKey comp) with ⟨b, e, a⟩ | ⟨b, a⟩ <;> rw [hp, hl] at hs <;> simp [Pos.Ok] at hs
      simp [hs, Pos.removed, BTree.remove]
    · rw [← hl]; exact (key x.1 x.2 (fun _ v => v)).2.1
  · intro f
    rcases hl : t.toList with _ | ⟨x, l⟩
    · rcases hp : t.search (onKey comp) with ⟨b, e, a⟩ | ⟨b, a⟩ <;> rw [hp, hl] at hs <;> simp [Pos.Ok] at hs
      simp [hs, Pos.modified, BTree.modify]
    · rw [← hl]; exact (key x.1 x.2 f).2.2.1
  · exact (key k v (fun _ v => v)).2.2.2
  · rw [lowerEdge_eq t h]; rfl
  · rw [upperEdge_eq t h]
    unfold upperBound cursorBefore onKey
    simp only
    cases hg : (t.toList.takeWhile (fun e => comp e.1 != .lt)).getLast? with
    | some e => rfl
    | none =>
      rw [List.getLast?_eq_none_iff] at hg
      have := List.takeWhile_append_dropWhile (p := fun e : K × V => comp e.1 != .lt) (l := t.toList)
      rw [hg, List.nil_append] at this
      rw [this]
end
end Nodit.BTree

namespace Nodit
open Spec PointType BTree

section
variable {I K V : Type} [PointType I] [LawfulPoint I] [IntervalType I K]

/-- the comparators `NoditMap` passes to the container (all uses of `self.inner` in `/repo/src/nodit/map.rs`) -/
inductive UsedComp : (K → Ordering) → Prop
  | overlapping (p : I) : UsedComp (overlappingComp p)
  | touchingStart (p : I) : UsedComp (touchingStartComp p)
  | touchingEnd (p : I) : UsedComp (touchingEndComp p)
  | starts (k : K) : UsedComp (startsComp k)

theorem used_mono {comp : K → Ordering} (hc : UsedComp comp) {l : List (K × V)} (h : WF l) : Mono (onKey comp) l := by
  rw [wf_iff_chain] at h
  obtain ⟨hv, h⟩ := h
  refine List.Pairwise.imp_of_mem ?_ h
  intro a b ha hb hab
  have h1 := hv a ha
  have h2 := hv b hb
  unfold onKey
  cases hc with
  | overlapping p =>
    unfold overlappingComp cmpPointWithInterval inclusiveComp
    grind
  | starts k =>
    unfold startsComp
    rw [compare_gt_iff_gt, compare_lt_iff_lt]
    rcases lt_or_ge (start a.1) (start k) with h | h
    · exact Or.inl h
    · right; order
  | touchingStart p =>
    unfold touchingStartComp
    cases hu : up (stop b.1) with
    | none => simp
    | some y =>
      obtain ⟨u1, u2⟩ := LawfulPoint.up_some _ _ hu
      cases hu' : up (stop a.1) with
      | none => have := LawfulPoint.up_none _ hu' (stop b.1); order
      | some x =>
        obtain ⟨w1, w2⟩ := LawfulPoint.up_some _ _ hu'
        simp only [compare_gt_iff_gt, compare_lt_iff_lt]
        have := w2 (stop b.1) (by order)
        rcases lt_or_ge x p with h | h
        · exact Or.inl h
        · right; order
  | touchingEnd p =>
    unfold touchingEndComp
    cases hu : down (start a.1) with
    | none => simp
    | some y =>
      obtain ⟨u1, u2⟩ := LawfulPoint.down_some _ _ hu
      cases hu' : down (start b.1) with
      | none => have := LawfulPoint.down_none _ hu' (start a.1); order
      | some x =>
        obtain ⟨w1, w2⟩ := LawfulPoint.down_some _ _ hu'
        simp only [compare_gt_iff_gt, compare_lt_iff_lt]
        have := w2 (start a.1) (by order)
        rcases lt_or_ge y p with h | h
        · exact Or.inl h
        · right; order

/-- **C50**: on a well-formed content (by C01 that of every reachable map, and that of the map between the steps of a
call), a tree of any shape gives the same results as the flat sequence: lookups, removals, updates, insertions and
cursors, for every comparator in use. -/
theorem C50_any_tree {comp : K → Ordering} (hc : UsedComp comp) (t : Tree (K × V)) (h : WF t.toList) : Agrees t comp :=
  agrees t (used_mono hc h)

/-- **C50**, for ranges: also the entries before and after the range are the same (so `range_mut` updates the same
entries). -/
theorem C50_any_tree_range {lower upper : K → Ordering} (hl : UsedComp lower) (hu : UsedComp upper) (t : Tree (K × V)) (h : WF t.toList) :
    BTree.range lower upper t.toList = t.range (onKey lower) (onKey upper) ∧
    ∃ b a, t.toList = b ++ t.range (onKey lower) (onKey upper) ++ a ∧
      ∀ f, BTree.rangeMut lower upper f t.toList = b ++ (t.range (onKey lower) (onKey upper)).map (fun e => (e.1, f e.1 e.2)) ++ a := by
  have hr : t.range (onKey lower) (onKey upper) = BTree.range lower upper t.toList := range_ok t (used_mono hl h) (used_mono hu h)
  refine ⟨hr.symm, t.toList.takeWhile (fun e => lower e.1 == .gt),
    (t.toList.dropWhile (fun e => lower e.1 == .gt)).dropWhile (fun e => upper e.1 != .lt), ?_, fun f => ?_⟩
  · rw [hr]; unfold BTree.range
    rw [List.append_assoc, List.takeWhile_append_dropWhile, List.takeWhile_append_dropWhile]
  · rw [hr]; rfl

/-- **C50**: in particular two trees with the same content cannot be told apart. -/
theorem C50_same_content {comp lower upper : K → Ordering} (hc : UsedComp comp) (hl : UsedComp lower) (hu : UsedComp upper)
    (t t' : Tree (K × V)) (h : WF t.toList) (he : t.toList = t'.toList) :
    t.search (onKey comp) = t'.search (onKey comp) ∧ t.lowerEdge (onKey comp) = t'.lowerEdge (onKey comp) ∧
    t.upperEdge (onKey comp) = t'.upperEdge (onKey comp) ∧
    t.range (onKey lower) (onKey upper) = t'.range (onKey lower) (onKey upper) := by
  have h' := he ▸ h
  have hm := used_mono hc h
  have hm' := used_mono hc h'
  refine ⟨?_, ?_, ?_, ?_⟩
  · have h1 := search_ok t hm.weak
    have h2 := search_ok t' hm'.weak
    rw [← he] at h2
    generalize t.search (onKey comp) = p at h1
    generalize t'.search (onKey comp) = p' at h2
    exact pos_unique hm h1 h2
  · rw [lowerEdge_eq t hm, lowerEdge_eq t' hm', he]
  · rw [upperEdge_eq t hm, upperEdge_eq t' hm', he]
  · rw [range_ok t (used_mono hl h) (used_mono hu h), range_ok t' (used_mono hl h') (used_mono hu h'), he]

/-- **C50**, for reachable maps -/
theorem C50_reachable [LawfulInterval I K] [BEq V] (ops : List (Op I K V)) {comp : K → Ordering} (hc : UsedComp comp) (t : Tree (K × V))
    (ht : t.toList = ((NoditMap.new : NoditMap K V).run ops).1.inner) : Agrees t comp :=
  C50_any_tree hc t (ht ▸ C01_invariant ops)

end

/-! ### `ZosditMap` -/
section
variable {I K V : Type} [PointType I] [LawfulPoint I] [IntervalType I K] [LawfulInterval I K]
open ZosditMap

/-- the comparators `ZosditMap` passes to the container, other than that of `insert_strict_back` -/
inductive ZUsedComp : (K → Ordering) → Prop
  | exclusiveGt (p : I) : ZUsedComp (exclusiveComp p .gt)
  | exclusiveLt (p : I) : ZUsedComp (exclusiveComp p .lt)
  | inclusiveGt (p : I) : ZUsedComp (inclusiveComp p .gt)
  | inclusiveLt (p : I) : ZUsedComp (inclusiveComp p .lt)

theorem zused_mono {comp : K → Ordering} (hc : ZUsedComp comp) {l : List (K × List V)} (h : ZInv l) : Mono (onKey comp) l := by
  refine List.Pairwise.imp_of_mem ?_ h.seq
  intro a b ha hb hab
  have h1 := h.valid a ha
  have h2 := h.valid b hb
  unfold onKey
  cases hc with
  | exclusiveGt p => unfold exclusiveComp; grind
  | exclusiveLt p => unfold exclusiveComp; grind
  | inclusiveGt p => unfold inclusiveComp; grind
  | inclusiveLt p => unfold inclusiveComp; grind

/-- **C50**, for `ZosditMap`: the queries, `remove_last_value_at_point` and `cut` -/
theorem C50_zosdit (ops : List (ZOp I K V)) {comp lower upper : K → Ordering} (hc : ZUsedComp comp) (hl : ZUsedComp lower)
    (hu : ZUsedComp upper) (t : Tree (K × List V)) (ht : t.toList = (after ops).inner) :
    Agrees t comp ∧ BTree.range lower upper t.toList = t.range (onKey lower) (onKey upper) := by
  have h := (good_after ops).inv
  rw [← ht] at h
  exact ⟨agrees t (zused_mono hc h), (range_ok t (zused_mono hl h) (zused_mono hu h)).symm⟩

/-- the comparator of `insert_strict_back` where it does not panic -/
def insertComp' (k : K) (e : K × List V) : Ordering :=
  match insertComp k e.1 with
  | .ok o => o
  | .error _ => .lt

/-- `entry(k, comp).or_default().push(v)` on a tree -/
def pushed (k : K) (v : V) : Pos (K × List V) → List (K × List V)
  | .found b e a => b ++ (e.1, e.2 ++ [v]) :: a
  | .edge b a => b ++ (k, [v]) :: a

theorem entryPush_found {k : K} {v : V} {e : K × List V} {a : List (K × List V)} (b : List (K × List V))
    (hok : ∀ x ∈ b ++ e :: a, insertComp k x.1 = .ok (insertComp' k x)) (he : insertComp' k e = .eq)
    (hm : WeakMono (insertComp' k) (b ++ e :: a)) :
    ∃ pick, entryPush (insertComp k) k v pick (b ++ e :: a) = .ok (b ++ (e.1, e.2 ++ [v]) :: a) := by
  induction b with
  | nil =>
    refine ⟨0, ?_⟩
    have h1 := hok e (by simp)
    rw [he] at h1
    simp only [List.nil_append]
    rw [entryPush, h1]
    cases a with
    | nil => rfl
    | cons x a => simp only [bind, Except.bind, hok x (by simp)]; rfl
  | cons x b ih =>
    unfold WeakMono at hm
    rw [List.cons_append, List.pairwise_cons] at hm
    obtain ⟨pick, hp⟩ := ih (fun y hy => hok y (by simp only [List.cons_append, List.mem_cons]; exact Or.inr hy)) hm.2
    have hx := hok x (by simp)
    cases hc : insertComp' k x with
    | lt => have := hm.1 e (by simp); rw [hc, he] at this; simp at this
    | gt =>
      refine ⟨pick, ?_⟩
      rw [List.cons_append, entryPush, hx, hc]
      simp only [bind, Except.bind, hp]; rfl
    | eq =>
      refine ⟨pick + 1, ?_⟩
      rw [List.cons_append, entryPush, hx, hc]
      rcases hl : b ++ e :: a with _ | ⟨y, l⟩
      · simp at hl
      · have hy := hok y (by rw [List.cons_append, hl]; simp)
        have hy' : insertComp' k y = .eq := by
          rcases hm.1 y (by rw [hl]; simp) with h | h | h
          · rw [hc] at h; cases h
          · cases b with
            | nil => simp only [List.nil_append, List.cons.injEq] at hl; rw [← hl.1]; exact he
            | cons z b =>
              simp only [List.cons_append, List.cons.injEq] at hl
              have := (List.pairwise_cons.1 hm.2).1 e (by simp)
              rw [hl.1, h, he] at this
              simp at this
          · exact h.2
        rw [hl] at hp
        simp only [bind, Except.bind, hy, hy', pure, Except.pure, decide_true, hp, List.cons_append]

theorem entryPush_edge {k : K} {v : V} {a : List (K × List V)} (b : List (K × List V))
    (hok : ∀ x ∈ b ++ a, insertComp k x.1 = .ok (insertComp' k x)) (hb : ∀ x ∈ b, insertComp' k x = .gt)
    (ha : ∀ x ∈ a, insertComp' k x = .lt) :
    entryPush (insertComp k) k v 0 (b ++ a) = .ok (b ++ (k, [v]) :: a) := by
  induction b with
  | nil =>
    cases a with
    | nil => rfl
    | cons x a =>
      rw [List.nil_append, entryPush, hok x (by simp), ha x (by simp)]; rfl
  | cons x b ih =>
    rw [List.cons_append, entryPush, hok x (by simp), hb x (by simp)]
    simp only [bind, Except.bind, ih (fun y hy => hok y (by simp only [List.cons_append, List.mem_cons]; exact Or.inr hy)) (fun y hy => hb y (by simp [hy]))]
    rfl

/-- as `C50_zosdit_insert`, for any map with the invariant -/
theorem zinsert_tree {m : ZosditMap K V} (h : ZInv m.inner) (t : Tree (K × List V)) (ht : t.toList = m.inner) {k : K}
    (hk : Valid k) (v : V) (hz : m.isZeroOverlap k = .ok true) :
    (∀ e ∈ t.toList, insertComp k e.1 = .ok (insertComp' k e)) ∧
    ∃ pick, m.insertStrictBack k v pick = .ok (⟨m.len + 1, pushed k v (t.search (insertComp' k))⟩, .ok ()) := by
  rw [valid_iff] at hk
  obtain ⟨b, hb, hb'⟩ := isZeroOverlap_ok h (q := k) hk
  rw [hz] at hb
  have hz' := hb'.1 (by cases hb; rfl)
  have hcase := fun e (he : e ∈ m.inner) => insertComp_ok hk (h.valid e he) (hz' e he)
  have hok : ∀ e ∈ m.inner, insertComp k e.1 = .ok (insertComp' k e) := by
    intro e he
    unfold insertComp'
    rcases hcase e he with ⟨hc, -⟩ | ⟨hc, -⟩ | ⟨hc, -⟩ <;> rw [hc]
  have hm : WeakMono (insertComp' k) m.inner := by
    refine List.Pairwise.imp_of_mem ?_ h.seq
    intro x y hx hy hxy
    have h1 := h.valid x hx
    have h2 := h.valid y hy
    rcases hcase x hx with ⟨hc, c1, c2, c3⟩ | ⟨hc, c1, c2⟩ | ⟨hc, c1, c2⟩
    · rcases hcase y hy with ⟨hd, d1, d2, d3⟩ | ⟨hd, d1, d2⟩ | ⟨hd, d1, d2⟩
      · right; right; simp [insertComp', hc, hd]
      · exfalso; order
      · right; left; simp [insertComp', hd]
    · left; simp [insertComp', hc]
    · rcases hcase y hy with ⟨hd, d1, d2, d3⟩ | ⟨hd, d1, d2⟩ | ⟨hd, d1, d2⟩
      · exfalso; order
      · exfalso; order
      · right; left; simp [insertComp', hd]
  refine ⟨ht ▸ hok, ?_⟩
  have key : ∃ pick, entryPush (insertComp k) k v pick m.inner = .ok (pushed k v (t.search (insertComp' k))) := by
    have hs := search_ok t (comp := insertComp' k) (ht ▸ hm)
    rw [ht] at hs
    generalize t.search (insertComp' k) = p at hs
    cases p with
    | found b e a =>
      obtain ⟨h1, h2⟩ := hs
      rw [h1] at hok hm ⊢
      exact entryPush_found b hok h2 hm
    | edge b a =>
      obtain ⟨h1, h2, h3⟩ := hs
      rw [h1] at hok ⊢
      exact ⟨0, entryPush_edge b hok h2 h3⟩
  obtain ⟨pick, hp⟩ := key
  refine ⟨pick, ?_⟩
  unfold insertStrictBack
  rw [invalidIntervalPanic_ok hk, hz]
  simp only [bind, Except.bind, Bool.not_true, Bool.false_eq_true, if_false, hp]
  rfl
/-- **C50**, for `insert_strict_back`: on a tree of any shape the accepted insert is the modelled one for some `pick`
(only with several stores for the same point interval do different picks give different results, see C39). -/
theorem C50_zosdit_insert (ops : List (ZOp I K V)) (t : Tree (K × List V)) (ht : t.toList = (after ops).inner) {k : K}
    (hk : Valid k) (v : V) (hz : (after ops).isZeroOverlap k = .ok true) :
    (∀ e ∈ t.toList, insertComp k e.1 = .ok (insertComp' k e)) ∧
    ∃ pick, (after ops).insertStrictBack k v pick = .ok (⟨(after ops).len + 1, pushed k v (t.search (insertComp' k))⟩, .ok ()) :=
  zinsert_tree (good_after ops).inv t ht hk v hz

end

/-! ### A concrete tree -/
namespace Demo
/-- a tree of three nodes with the content of `m` -/
def tree : Tree (Interval U8 × Nat) :=
  .node (.node .empty (.cons (iv 0 1, 7) .empty (.cons (iv 3 4, 7) .empty .nil)))
    (.cons (iv 10 12, 8) (.node .empty (.cons (iv 13 15, 9) .empty (.cons (iv 16 20, 8) .empty (.cons (iv 250 255, 1) .empty .nil)))) .nil)

theorem tree_content : tree.toList = m.iter := by rw [m_iter]; rfl

example : Agrees tree (overlappingComp (u8 14)) ∧ (tree.search (onKey (overlappingComp (u8 14)))).lookup = some (iv 13 15, 9) :=
  ⟨C50_reachable ops (.overlapping _) tree tree_content, by decide⟩

/-- a tree for a `ZosditMap` -/
def ztree : Tree (Interval U8 × List Nat) :=
  .node (.node .empty (.cons (iv 0 2, [1]) .empty .nil)) (.cons (iv 6 8, [3]) (.node .empty (.cons (iv 30 30, [6, 7]) .empty .nil)) .nil)

theorem ztree_content : ztree.toList = (ZosditMap.after zops).inner := by decide

example : ∃ pick, (ZosditMap.after zops).insertStrictBack (iv 30 30) 10 pick =
    .ok (⟨(ZosditMap.after zops).len + 1, pushed (iv 30 30) 10 (ztree.search (insertComp' (iv 30 30)))⟩, .ok ()) :=
  (C50_zosdit_insert zops ztree ztree_content (k := iv 30 30) ⟨u8 30, by decide, by decide⟩ 10 (by decide)).2
end Demo
end Nodit
