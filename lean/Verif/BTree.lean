import Verif.Point
/-!
# The ordered container underneath

Model of the part of `btree_monstrousity::BTreeMap` the crate uses (`/repo/Cargo.toml:22-25`; the source of
that crate is not in `/repo`). A map is its in-order list of entries. Searches take a comparator
`K → Ordering` giving the ordering of the search target relative to an inner key; as in the B-tree's node
scan, keys answering `gt` are skipped, the first key answering `eq` is the hit, and a key answering `lt`
ends the search. `Verif/Tree.lean` relates this to search trees of arbitrary shape.
-/
namespace Nodit.BTree
variable {K V : Type}

/-- `BTreeMap::get_key_value(comp)`; used e.g. at `/repo/src/nodit/map.rs:312`. -/
def find (comp : K → Ordering) : List (K × V) → Option (K × V)
  | [] => none
  | e :: l => match comp e.1 with
    | .gt => find comp l
    | .eq => some e
    | .lt => none

/-- `BTreeMap::remove(comp)`; used e.g. at `/repo/src/nodit/map.rs:861`. -/
def remove (comp : K → Ordering) : List (K × V) → List (K × V)
  | [] => []
  | e :: l => match comp e.1 with
    | .gt => e :: remove comp l
    | .eq => l
    | .lt => e :: l

/-- `BTreeMap::get_mut(comp)` followed by an update of the value found; `/repo/src/nodit/map.rs:258`. -/
def modify (comp : K → Ordering) (f : K → V → V) : List (K × V) → List (K × V)
  | [] => []
  | e :: l => match comp e.1 with
    | .gt => e :: modify comp f l
    | .eq => (e.1, f e.1 e.2) :: l
    | .lt => e :: l

/-- `BTreeMap::insert(key, value, comp)`; `/repo/src/nodit/map.rs:730`. On a hit the value is replaced and
the old key kept, as in std. -/
def insert (comp : K → Ordering) (k : K) (v : V) : List (K × V) → List (K × V)
  | [] => [(k, v)]
  | e :: l => match comp e.1 with
    | .gt => e :: insert comp k v l
    | .eq => (e.1, v) :: l
    | .lt => (k, v) :: e :: l

/-- `BTreeMap::range(lower, Included, upper, Included)`; `/repo/src/nodit/map.rs:162-167`: from the first
key not answering `gt` to `lower`, up to the last key before one answering `lt` to `upper` (the B-tree looks
for the upper edge starting from the lower edge). -/
def range (lower upper : K → Ordering) (l : List (K × V)) : List (K × V) :=
  (l.dropWhile (fun e => lower e.1 == .gt)).takeWhile (fun e => upper e.1 != .lt)

/-- `BTreeMap::range_mut(lower, Included, upper, Included)` with the caller applying `f` to every value it
yields; `/repo/src/nodit/map.rs:208-213`. -/
def rangeMut (lower upper : K → Ordering) (f : K → V → V) (l : List (K × V)) : List (K × V) :=
  let rest := l.dropWhile (fun e => lower e.1 == .gt)
  l.takeWhile (fun e => lower e.1 == .gt)
    ++ (rest.takeWhile (fun e => upper e.1 != .lt)).map (fun e => (e.1, f e.1 e.2))
    ++ rest.dropWhile (fun e => upper e.1 != .lt)

/-- A cursor: the entries before the current one, and the entries from the current one on. `after = []` is
the "ghost" position past the end (which is also the position before the first element).
Used e.g. at `/repo/src/nodit/map.rs:439-461`. -/
structure Cursor (K V : Type) where
  before : List (K × V)
  after : List (K × V)

namespace Cursor
/-- `Cursor::key_value`. Used at `/repo/src/zosdit/map.rs:187`. -/
def keyValue (c : Cursor K V) : Option (K × V) := c.after.head?
/-- `Cursor::key`. Used e.g. at `/repo/src/nodit/map.rs:383`. -/
def key (c : Cursor K V) : Option K := c.after.head?.map Prod.fst
/-- the whole map. What the cursor at `/repo/src/nodit/map.rs:439-461` leaves in the map. -/
def entries (c : Cursor K V) : List (K × V) := c.before ++ c.after
/-- `Cursor::move_next`: from the ghost position to the first element. Used at `/repo/src/zosdit/map.rs:434`. -/
def moveNext (c : Cursor K V) : Cursor K V :=
  match c.after with
  | [] => ⟨[], c.before⟩
  | e :: l => ⟨c.before ++ [e], l⟩
/-- `Cursor::move_prev`: from the ghost position to the last element, from the first to the ghost.
Used at `/repo/src/zosdit/map.rs:183, 230`. -/
def movePrev (c : Cursor K V) : Cursor K V :=
  match c.before.getLast? with
  | some e => ⟨c.before.dropLast, e :: c.after⟩
  | none => ⟨c.after, []⟩
/-- `CursorMut::remove_current`: the cursor then points at the next element.
Used e.g. at `/repo/src/nodit/map.rs:386, 449`. -/
def removeCurrent (c : Cursor K V) : Option (K × V) × Cursor K V :=
  match c.after with
  | [] => (none, c)
  | e :: l => (some e, ⟨c.before, l⟩)
/-- `CursorMut::insert_before`: the cursor stays on its element. Used e.g. at `/repo/src/nodit/map.rs:454-457`. -/
def insertBefore (c : Cursor K V) (k : K) (v : V) : Cursor K V := ⟨c.before ++ [(k, v)], c.after⟩
end Cursor

/-- `BTreeMap::lower_bound(comp, Included)` (and `_mut`): the first element that is not below the bound.
Used e.g. at `/repo/src/nodit/map.rs:321, 377, 439`. -/
def lowerBound (comp : K → Ordering) (l : List (K × V)) : Cursor K V :=
  ⟨l.takeWhile (fun e => comp e.1 == .gt), l.dropWhile (fun e => comp e.1 == .gt)⟩

/-- `BTreeMap::upper_bound(comp, Included)` (and `_mut`): the last element that is not above the bound, or
the ghost position. Used at `/repo/src/nodit/map.rs:318` and `/repo/src/zosdit/map.rs:428`. -/
def upperBound (comp : K → Ordering) (l : List (K × V)) : Cursor K V :=
  let pre := l.takeWhile (fun e => comp e.1 != .lt)
  let post := l.dropWhile (fun e => comp e.1 != .lt)
  match pre.getLast? with
  | some e => ⟨pre.dropLast, e :: post⟩
  | none => ⟨l, []⟩

end Nodit.BTree
