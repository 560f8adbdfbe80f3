import Verif.BTree
/-!
# Search trees of arbitrary shape

`Verif/BTree.lean` models the B-tree by its in-order list. Here are n-ary search trees with entries in all nodes and
the descent of the B-tree on them, so that it can be proved (`Verif/Props/TreeProps.lean`, C50) that for the
comparators the crate uses the result of a search depends on the in-order list only. The descent is that of
`alloc::collections::btree` (`search.rs`: `search_tree`, `find_key_index`, `find_lower_bound_index`,
`find_upper_bound_index`, `search_tree_for_bifurcation`), of which `btree_monstrousity` (`/repo/Cargo.toml:22-25`; its
source is not in `/repo`) is a variant taking comparators. Node capacities and balance play no role.
-/
namespace Nodit.BTree
variable {α : Type}

mutual
/-- A tree: `empty` is what is below a leaf, a node has a first child and then entries each followed by a child.
Dependency `btree_monstrousity`, no lines in `/repo`. -/
inductive Tree (α : Type) where
  | empty
  | node (first : Tree α) (rest : Edges α)
/-- The entries of a node, each with the child to its right.
Dependency `btree_monstrousity`, no lines in `/repo`. -/
inductive Edges (α : Type) where
  | nil
  | cons (e : α) (child : Tree α) (rest : Edges α)
end

mutual
/-- the entries in order.
Dependency `btree_monstrousity`, no lines in `/repo`. -/
def Tree.toList : Tree α → List α
  | .empty => []
  | .node first rest => first.toList ++ rest.toList
/-- the entries in order.
Dependency `btree_monstrousity`, no lines in `/repo`. -/
def Edges.toList : Edges α → List α
  | .nil => []
  | .cons e child rest => e :: (child.toList ++ rest.toList)
end

/-- Where a search ends: at an entry, or at an edge between entries; with what is before and after.
Dependency `btree_monstrousity`, no lines in `/repo`. -/
inductive Pos (α : Type) where
  | found (before : List α) (e : α) (after : List α)
  | edge (before after : List α)

/-- the position seen from a larger sequence.
Dependency `btree_monstrousity`, no lines in `/repo`. -/
def Pos.within (l r : List α) : Pos α → Pos α
  | .found b e a => .found (l ++ b) e (a ++ r)
  | .edge b a => .edge (l ++ b) (a ++ r)

mutual
/-- `search_tree`: scan the node's entries from the left; stop at the first that does not answer `gt`; on `eq` it is
found, on `lt` go down to the child on its left; past the last entry go down to the last child.
Dependency `btree_monstrousity`, no lines in `/repo`. -/
def Tree.search (comp : α → Ordering) : Tree α → Pos α
  | .empty => .edge [] []
  | .node first rest => rest.scan comp (first.search comp) first.toList
/-- the scan within a node; `below` is the result of going down to the child left of the scanned entries, `left` the
entries in it.
Dependency `btree_monstrousity`, no lines in `/repo`. -/
def Edges.scan (comp : α → Ordering) (below : Pos α) (left : List α) : Edges α → Pos α
  | .nil => below
  | .cons e child rest =>
    match comp e with
    | .gt => (rest.scan comp (child.search comp) child.toList).within (left ++ [e]) []
    | .eq => .found left e (child.toList ++ rest.toList)
    | .lt => below.within [] (e :: (child.toList ++ rest.toList))
end

mutual
/-- The edge of an included lower bound (`find_lower_bound_index`, going down): on `eq` the edge before the entry, all of
the child on its left being below it (`AllExcluded`).
Dependency `btree_monstrousity`, no lines in `/repo`. -/
def Tree.lowerEdge (comp : α → Ordering) : Tree α → List α × List α
  | .empty => ([], [])
  | .node first rest => rest.lowerScan comp (first.lowerEdge comp) first.toList
/-- the scan within a node.
Dependency `btree_monstrousity`, no lines in `/repo`. -/
def Edges.lowerScan (comp : α → Ordering) (below : List α × List α) (left : List α) : Edges α → List α × List α
  | .nil => below
  | .cons e child rest =>
    match comp e with
    | .gt => let r := rest.lowerScan comp (child.lowerEdge comp) child.toList; (left ++ e :: r.1, r.2)
    | .eq => (left, e :: (child.toList ++ rest.toList))
    | .lt => (below.1, below.2 ++ e :: (child.toList ++ rest.toList))
end

mutual
/-- The edge of an included upper bound (`find_upper_bound_index`, going down): on `eq` the edge after the entry, all of
the child on its right being above it.
Dependency `btree_monstrousity`, no lines in `/repo`. -/
def Tree.upperEdge (comp : α → Ordering) : Tree α → List α × List α
  | .empty => ([], [])
  | .node first rest => rest.upperScan comp (first.upperEdge comp) first.toList
/-- the scan within a node.
Dependency `btree_monstrousity`, no lines in `/repo`. -/
def Edges.upperScan (comp : α → Ordering) (below : List α × List α) (left : List α) : Edges α → List α × List α
  | .nil => below
  | .cons e child rest =>
    match comp e with
    | .gt => let r := rest.upperScan comp (child.upperEdge comp) child.toList; (left ++ e :: r.1, r.2)
    | .eq => (left ++ [e], child.toList ++ rest.toList)
    | .lt => (below.1, below.2 ++ e :: (child.toList ++ rest.toList))
end

mutual
/-- The entries between an included lower and an included upper bound (`search_tree_for_bifurcation`): in each node
the upper edge is looked for from the lower edge on; if it is the same edge, go down there with both; else go down
separately.
Dependency `btree_monstrousity`, no lines in `/repo`. -/
def Tree.range (lower upper : α → Ordering) : Tree α → List α
  | .empty => []
  | .node first rest => rest.rangeScan lower upper (first.range lower upper) (first.lowerEdge lower).2
/-- the scan within a node for the lower edge; `both` is the result of going down with both bounds to the child left of
the scanned entries, `fromLower` what is above the lower edge in it.
Dependency `btree_monstrousity`, no lines in `/repo`. -/
def Edges.rangeScan (lower upper : α → Ordering) (both fromLower : List α) : Edges α → List α
  | .nil => both
  | .cons e child rest =>
    match lower e with
    | .gt => rest.rangeScan lower upper (child.range lower upper) (child.lowerEdge lower).2
    | .eq =>
      match upper e with
      | .lt => []
      | .eq => [e]
      | .gt => e :: (rest.upperScan upper (child.upperEdge upper) child.toList).1
    | .lt =>
      match upper e with
      | .lt => both
      | .eq => fromLower ++ [e]
      | .gt => fromLower ++ e :: (rest.upperScan upper (child.upperEdge upper) child.toList).1
end

/-! ## The calls of the container on a tree -/

section
variable {K V : Type}

/-- the comparator on entries.
Dependency `btree_monstrousity`, no lines in `/repo`. -/
def onKey {V : Type} (comp : K → Ordering) (e : K × V) : Ordering := comp e.1

/-- what a tree with these entries gives for lookup, removal, update in place and insertion: the entry found, or the
sequence edited where the search ends.
Dependency `btree_monstrousity`, no lines in `/repo`. -/
def Pos.lookup : Pos (K × V) → Option (K × V)
  | .found _ e _ => some e
  | .edge _ _ => none
/-- removal of the entry found.
Dependency `btree_monstrousity`, no lines in `/repo`. -/
def Pos.removed : Pos (K × V) → List (K × V)
  | .found b _ a => b ++ a
  | .edge b a => b ++ a
/-- update of the value found.
Dependency `btree_monstrousity`, no lines in `/repo`. -/
def Pos.modified (f : K → V → V) : Pos (K × V) → List (K × V)
  | .found b e a => b ++ (e.1, f e.1 e.2) :: a
  | .edge b a => b ++ a
/-- insertion at the edge, or replacement of the value found.
Dependency `btree_monstrousity`, no lines in `/repo`. -/
def Pos.inserted (k : K) (v : V) : Pos (K × V) → List (K × V)
  | .found b e a => b ++ (e.1, v) :: a
  | .edge b a => b ++ (k, v) :: a
/-- the cursor on the entry after the edge.
Dependency `btree_monstrousity`, no lines in `/repo`. -/
def cursorAfter (p : List (K × V) × List (K × V)) : Cursor K V := ⟨p.1, p.2⟩
/-- the cursor on the entry before the edge (or the ghost).
Dependency `btree_monstrousity`, no lines in `/repo`. -/
def cursorBefore (p : List (K × V) × List (K × V)) : Cursor K V :=
  match p.1.getLast? with
  | some e => ⟨p.1.dropLast, e :: p.2⟩
  | none => ⟨p.2, []⟩

end

end Nodit.BTree
