import Verif.NoditSet
import Verif.Gqdit
import Verif.Zosdit
/-!
# Iterators, call by call

The other files model what an iterator yields as one list. Here the iterators handed out by the crate are machines driven
by single calls of `next()` and `next_back()`, built from the same adapters as in the code.
-/
namespace Nodit.It

/-- An iterator method on states `σ`: `it s r s'` says that the call in state `s` returns (or panics with) `r` and leaves the
iterator in state `s'`. (A relation, as several adapters loop.). Used at all iterators of `/repo/src`.
Semantics of calls, models no lines of `/repo` of its own. -/
abbrev Method (σ α : Type) := σ → Res (Option α) → σ → Prop

/-- `Iterator` + `DoubleEndedIterator`. The bound of e.g. `/repo/src/nodit/map.rs:152-158`. -/
structure DoubleEnded (σ α : Type) where
  next : Method σ α
  nextBack : Method σ α

section
variable {σ τ α β : Type}

/-- a method given by a function. Semantics of calls, models no lines of `/repo` of its own. -/
def ofFun (f : σ → Option α × σ) : Method σ α := fun s r s' => r = .ok (f s).1 ∧ s' = (f s).2

/-- `Option::into_iter()`. Used at `/repo/src/nodit/map.rs:548, 648`. -/
def option : Method (Option α) α := ofFun fun o => (o, none)

/-- `Iterator::map`; the closure can panic. Used e.g. at `/repo/src/nodit/map.rs:537`. -/
inductive map (f : α → Res β) (it : Method σ α) : Method σ β
  | done {s s'} : it s (.ok none) s' → map f it s (.ok none) s'
  | item {s a b s'} : it s (.ok (some a)) s' → f a = .ok b → map f it s (.ok (some b)) s'
  | panics {s a p s'} : it s (.ok (some a)) s' → f a = .error p → map f it s (.error p) s'
  | inner {s p s'} : it s (.error p) s' → map f it s (.error p) s'

/-- `Iterator::filter_map`; `filter(p)` and `filter_map` loop until the closure accepts an item.
Used at `/repo/src/gqdit/mod.rs:129, 181`. -/
inductive filterMap (g : α → Option β) (it : Method σ α) : Method σ β
  | done {s s'} : it s (.ok none) s' → filterMap g it s (.ok none) s'
  | item {s a b s'} : it s (.ok (some a)) s' → g a = some b → filterMap g it s (.ok (some b)) s'
  | skip {s a s' r s''} : it s (.ok (some a)) s' → g a = none → filterMap g it s' r s'' → filterMap g it s r s''
  | inner {s p s'} : it s (.error p) s' → filterMap g it s (.error p) s'

/-- `Iterator::filter`. Used at `/repo/src/nodit/map.rs:543, 643`. -/
def filter (p : α → Bool) (it : Method σ α) : Method σ α := filterMap (fun a => if p a then some a else none) it

/-- `Iterator::take_while`: the iterator and the flag that the predicate has failed.
Used at `/repo/src/gqdit/mod.rs:461, 477`. -/
inductive takeWhile (p : α → Bool) (it : Method σ α) : Method (σ × Bool) α
  | flagged {s} : takeWhile p it (s, true) (.ok none) (s, true)
  | done {s s'} : it s (.ok none) s' → takeWhile p it (s, false) (.ok none) (s', false)
  | item {s a s'} : it s (.ok (some a)) s' → p a = true → takeWhile p it (s, false) (.ok (some a)) (s', false)
  | stop {s a s'} : it s (.ok (some a)) s' → p a = false → takeWhile p it (s, false) (.ok none) (s', true)
  | inner {s p' s'} : it s (.error p') s' → takeWhile p it (s, false) (.error p') (s', false)

/-- `Iterator::chain`: the first iterator, cleared when it is exhausted, and the second.
Used at `/repo/src/nodit/map.rs:549-550`. -/
inductive chain (it : Method σ α) (jt : Method τ α) : Method (Option σ × τ) α
  | first {s a s' t} : it s (.ok (some a)) s' → chain it jt (some s, t) (.ok (some a)) (some s', t)
  | switch {s s' t r t'} : it s (.ok none) s' → jt t r t' → chain it jt (some s, t) r (none, t')
  | second {t r t'} : jt t r t' → chain it jt (none, t) r (none, t')
  | inner {s p s' t} : it s (.error p) s' → chain it jt (some s, t) (.error p) (some s', t)

/-- `Itertools::tuple_windows` (itertools 0.13) for pairs: the iterator and the last pair, which is fetched by the first
call. Used at `/repo/src/nodit/map.rs:536, 636`. -/
inductive windows (it : Method σ α) : Method (σ × Option (α × α)) (α × α)
  | done {s l s'} : it s (.ok none) s' → windows it (s, l) (.ok none) (s', l)
  | shift {s a b c s'} : it s (.ok (some c)) s' → windows it (s, some (a, b)) (.ok (some (b, c))) (s', some (b, c))
  | start {s a b s' s''} : it s (.ok (some a)) s' → it s' (.ok (some b)) s'' →
      windows it (s, none) (.ok (some (a, b))) (s'', some (a, b))
  | short {s a s' s''} : it s (.ok (some a)) s' → it s' (.ok none) s'' → windows it (s, none) (.ok none) (s'', none)
  | inner {s l p s'} : it s (.error p) s' → windows it (s, l) (.error p) (s', l)
  | inner' {s a s' p s''} : it s (.ok (some a)) s' → it s' (.error p) s'' → windows it (s, none) (.error p) (s'', none)

/-- the `try_fold` of `Itertools::coalesce` from an accumulator: the result, the iterator, and the item kept for the next
call. Used at `/repo/src/gqdit/mod.rs:218, 465, 481`. -/
inductive coalesceFold (f : α → α → Res (Except (α × α) α)) (it : Method σ α) : σ → α → Res α → σ → Option α → Prop
  | done {s acc s'} : it s (.ok none) s' → coalesceFold f it s acc (.ok acc) s' none
  | join {s acc x z s' r s'' k} : it s (.ok (some x)) s' → f acc x = .ok (.ok z) → coalesceFold f it s' z r s'' k →
      coalesceFold f it s acc r s'' k
  | keep {s acc x a b s'} : it s (.ok (some x)) s' → f acc x = .ok (.error (a, b)) → coalesceFold f it s acc (.ok a) s' (some b)
  | panics {s acc x p s'} : it s (.ok (some x)) s' → f acc x = .error p → coalesceFold f it s acc (.error p) s' none
  | inner {s acc p s'} : it s (.error p) s' → coalesceFold f it s acc (.error p) s' none

/-- `Itertools::coalesce` (itertools 0.13, `CoalesceBy::next`): the iterator and `last: Option<Option<T>>`, `None` before the
first call. Used at `/repo/src/gqdit/mod.rs:218, 465, 481`. -/
inductive coalesce (f : α → α → Res (Except (α × α) α)) (it : Method σ α) : Method (σ × Option (Option α)) α
  | empty {s s'} : it s (.ok none) s' → coalesce f it (s, none) (.ok none) (s', some none)
  | first {s x s' r s'' k} : it s (.ok (some x)) s' → coalesceFold f it s' x r s'' k →
      coalesce f it (s, none) (r.map some) (s'', some k)
  | later {s x r s' k} : coalesceFold f it s x r s' k → coalesce f it (s, some (some x)) (r.map some) (s', some k)
  | over {s} : coalesce f it (s, some none) (.ok none) (s, some none)
  | inner {s p s'} : it s (.error p) s' → coalesce f it (s, none) (.error p) (s', some none)

/-- `Option::and_then_or_clear` of `core::iter`: a call on an optional inner iterator, which is cleared when exhausted.
Used by `flat_map`, `/repo/src/zosdit/map.rs:514`. -/
inductive orClear (it : Method σ α) : Method (Option σ) α
  | absent : orClear it none (.ok none) none
  | some {s a s'} : it s (.ok (some a)) s' → orClear it (some s) (.ok (some a)) (some s')
  | clear {s s'} : it s (.ok none) s' → orClear it (some s) (.ok none) none
  | inner {s p s'} : it s (.error p) s' → orClear it (some s) (.error p) (some s')

/-- `FlattenCompat::next` of `core::iter` (used by `flat_map`): front inner iterator, outer iterator, back inner iterator.
The outer iterator here yields the initial states of the inner ones. (`FlattenCompat` wraps the outer one in `Fuse`, which
for the fused B-tree iterators passes calls through.). Used at `/repo/src/zosdit/map.rs:514, 542, 634`. -/
inductive flatNext (outer : Method σ τ) (inner : Method τ α) (innerEnd : Method τ α) : Method (Option τ × σ × Option τ) α
  | here {f f' a s b} : orClear inner f (.ok (some a)) f' → flatNext outer inner innerEnd (f, s, b) (.ok (some a)) (f', s, b)
  | more {f f' s s' t b r st} : orClear inner f (.ok none) f' → outer s (.ok (some t)) s' →
      flatNext outer inner innerEnd (some t, s', b) r st → flatNext outer inner innerEnd (f, s, b) r st
  | last {f f' s s' b r b'} : orClear inner f (.ok none) f' → outer s (.ok none) s' → orClear innerEnd b r b' →
      flatNext outer inner innerEnd (f, s, b) r (f', s', b')
  | panic {f f' s b p} : orClear inner f (.error p) f' → flatNext outer inner innerEnd (f, s, b) (.error p) (f', s, b)
  | panic' {f f' s s' b p} : orClear inner f (.ok none) f' → outer s (.error p) s' →
      flatNext outer inner innerEnd (f, s, b) (.error p) (f', s', b)

/-- `FlattenCompat::next_back`: as `next` with the roles of front and back exchanged.
Used at `/repo/src/zosdit/map.rs:514, 542`. -/
def flatNextBack (outerBack : Method σ τ) (innerBack : Method τ α) : Method (Option τ × σ × Option τ) α :=
  fun st r st' => flatNext outerBack innerBack innerBack (st.2.2, st.2.1, st.1) r (st'.2.2, st'.2.1, st'.1)

/-- `Iterator::flat_map`, double-ended. Used at `/repo/src/zosdit/map.rs:514, 542, 634`. -/
def flatMap (outer : DoubleEnded σ τ) (inner : DoubleEnded τ α) : DoubleEnded (Option τ × σ × Option τ) α :=
  ⟨flatNext outer.next inner.next inner.next, flatNextBack outer.nextBack inner.nextBack⟩

/-- `map` keeps being double-ended. Used at `/repo/src/zosdit/map.rs:515`. -/
def DoubleEnded.map (f : α → Res β) (it : DoubleEnded σ α) : DoubleEnded σ β := ⟨It.map f it.next, It.map f it.nextBack⟩

/-- `Iterator::rev`. Used at `/repo/src/gqdit/mod.rs:474`. -/
def DoubleEnded.rev (it : DoubleEnded σ α) : DoubleEnded σ α := ⟨it.nextBack, it.next⟩

/-- a slice iterator (`SmallVec::iter`): what is between its two pointers. Used at `/repo/src/zosdit/map.rs:515, 543`. -/
def slice : DoubleEnded (List α) α := ⟨ofFun fun l => (l.head?, l.tail), ofFun fun l => (l.getLast?, l.dropLast)⟩

/-- `vec::IntoIter`, front only, as used for the results of `cut` and `remove_overlapping`.
Used at `/repo/src/nodit/map.rs:389, 463`. -/
def vec : Method (List α) α := ofFun fun l => (l.head?, l.tail)
end

/-- `btree_map::Range`: the in-order entries, and the two edges, as numbers of entries before them. `next` stops when the
edges meet. Used at `/repo/src/nodit/map.rs:162`. -/
structure Range (K V : Type) where
  entries : List (K × V)
  lo : Nat
  hi : Nat

/-- `btree_map::Iter` and `IntoIter`: counts the entries left instead of comparing the edges.
Used at `/repo/src/nodit/map.rs:1403`. -/
structure Iter (K V : Type) where
  entries : List (K × V)
  lo : Nat
  hi : Nat
  length : Nat

section
variable {K V : Type}

/-- `Range::next`, `Range::next_back`. Used at `/repo/src/nodit/map.rs:162`. -/
def range : DoubleEnded (Range K V) (K × V) where
  next := ofFun fun s => if s.lo = s.hi then (none, s) else (s.entries[s.lo]?, { s with lo := s.lo + 1 })
  nextBack := ofFun fun s => if s.lo = s.hi then (none, s) else (s.entries[s.hi - 1]?, { s with hi := s.hi - 1 })

/-- `Iter::next`, `Iter::next_back`. Used at `/repo/src/nodit/map.rs:1403`. -/
def iter : DoubleEnded (Iter K V) (K × V) where
  next := ofFun fun s =>
    if s.length = 0 then (none, s) else (s.entries[s.lo]?, { s with lo := s.lo + 1, length := s.length - 1 })
  nextBack := ofFun fun s =>
    if s.length = 0 then (none, s) else (s.entries[s.hi - 1]?, { s with hi := s.hi - 1, length := s.length - 1 })

/-- `btree_map::IterMut` with the caller applying `f` to the value of the entry a call yields (references handed out earlier
are to other entries). The method returns the entry before that. Used at `/repo/src/nodit/map.rs:1347-1351`. -/
def iterMut (f : K → V → V) : DoubleEnded (Iter K V) (K × V) where
  next := ofFun fun s =>
    if s.length = 0 then (none, s)
    else (s.entries[s.lo]?,
      { s with entries := s.entries.modify s.lo (fun e => (e.1, f e.1 e.2)), lo := s.lo + 1, length := s.length - 1 })
  nextBack := ofFun fun s =>
    if s.length = 0 then (none, s)
    else (s.entries[s.hi - 1]?,
      { s with entries := s.entries.modify (s.hi - 1) (fun e => (e.1, f e.1 e.2)), hi := s.hi - 1, length := s.length - 1 })

/-- `btree_map::RangeMut`, likewise. Used at `/repo/src/nodit/map.rs:208`. -/
def rangeMut (f : K → V → V) : DoubleEnded (Range K V) (K × V) where
  next := ofFun fun s =>
    if s.lo = s.hi then (none, s)
    else (s.entries[s.lo]?, { s with entries := s.entries.modify s.lo (fun e => (e.1, f e.1 e.2)), lo := s.lo + 1 })
  nextBack := ofFun fun s =>
    if s.lo = s.hi then (none, s)
    else (s.entries[s.hi - 1]?, { s with entries := s.entries.modify (s.hi - 1) (fun e => (e.1, f e.1 e.2)), hi := s.hi - 1 })

/-- `BTreeMap::range(lower, Included, upper, Included)`: the edges; as for `BTree.range` the upper one is searched from the
lower one on. Used at `/repo/src/nodit/map.rs:162-167`. -/
def mkRange (lower upper : K → Ordering) (l : List (K × V)) : Range K V :=
  let lo := (l.takeWhile (fun e => lower e.1 == .gt)).length
  ⟨l, lo, lo + ((l.drop lo).takeWhile (fun e => upper e.1 != .lt)).length⟩

/-- `BTreeMap::iter()`, `into_iter()`. Used at `/repo/src/nodit/map.rs:1403`. -/
def mkIter (l : List (K × V)) : Iter K V := ⟨l, 0, l.length, l.length⟩
end

/-! ## Functions that call iterators -/

/-- a computation containing iterator calls: the set of its possible results.
Semantics of calls, models no lines of `/repo` of its own. -/
def Prog (α : Type) := Res α → Prop

namespace Prog
variable {α β σ : Type}

/-- a computation without iterator calls. Semantics of calls, models no lines of `/repo` of its own. -/
def lift (r : Res α) : Prog α := fun r' => r' = r

/-- sequencing; a panic ends the computation. Semantics of calls, models no lines of `/repo` of its own. -/
def bind (x : Prog α) (f : α → Prog β) : Prog β :=
  fun r => (∃ p, x (.error p) ∧ r = .error p) ∨ ∃ a, x (.ok a) ∧ f a r

/-- the value of one iterator call. Semantics of calls, models no lines of `/repo` of its own. -/
def call (it : Method σ α) (s : σ) : Prog (Option α) := fun r => ∃ s', it s r s'

/-- `Iterator::collect()` (into a `Vec`): `next()` is called until it returns `None`.
Used e.g. at `/repo/src/gqdit/mod.rs:137, 225, 276`. -/
inductive collect (it : Method σ α) : σ → Prog (List α)
  | done {s s'} : it s (.ok none) s' → collect it s (.ok [])
  | item {s a s' l} : it s (.ok (some a)) s' → collect it s' (.ok l) → collect it s (.ok (a :: l))
  | panics {s p s'} : it s (.error p) s' → collect it s (.error p)
  | later {s a s' p} : it s (.ok (some a)) s' → collect it s' (.error p) → collect it s (.error p)

/-- sequencing of such computations; models no lines of `/repo` -/
instance : Monad Prog where
  pure a := lift (.ok a)
  bind := bind
end Prog
end Nodit.It

namespace Nodit
open It PointType InclusiveInterval

namespace NoditMap
variable {I K Q V : Type} [PointType I] [IntervalType I K] [IntervalType I Q]

/-- `iter()`, `/repo/src/nodit/map.rs:1320-1322`: an iterator in its initial state -/
def iterStart (m : NoditMap K V) : It.Iter K V := It.mkIter m.inner

/-- `overlapping()`, `/repo/src/nodit/map.rs:153-169` -/
def overlappingStart (m : NoditMap K V) (q : Q) : Res (It.Range K V) := do
  invalidIntervalPanic q
  pure (It.mkRange (overlappingComp (start q)) (overlappingComp (stop q)) m.inner)

/-- the closure of `inner_gaps`, `/repo/src/nodit/map.rs:537-542, 637-642` -/
def gapBetween (w : (I × I) × (I × I)) : Res K := do
  let s ← unwrap (up w.1.2)
  let e ← unwrap (down w.2.1)
  pure (ofInterval { start := s, stop := e })

/-- the iterator of `gaps_untrimmed` and `gaps_trimmed`, `/repo/src/nodit/map.rs:531-550, 631-650` -/
def gapsIt : It.Method (Option (Option (Option K) × It.Range K V × Option ((I × I) × (I × I))) × Option K) K :=
  It.chain
    (It.chain It.option
      (It.filter (fun k => isValid k)
        (It.map gapBetween (It.windows (It.map (fun e => .ok (start e.1, stop e.1)) It.range.next)))))
    It.option

/-- what `gaps_untrimmed` returns, `/repo/src/nodit/map.rs:497-551` -/
def gapsUntrimmedStart (m : NoditMap K V) (q : Q) :
    Res (Option (Option (Option K) × It.Range K V × Option ((I × I) × (I × I))) × Option K) := do
  invalidIntervalPanic q
  let startGap ← m.gapAt (start q)
  let endGap ← m.gapAt (stop q)
  let (startGap, endGap) := match startGap, endGap with
    | some s, some e => if s.start = e.start then (some s, none) else (some s, some e)
    | some s, none => (some s, none)
    | none, some e => (none, some e)
    | none, none => (none, none)
  let overlapping ← m.overlappingStart q
  pure (some (some (startGap.map ofInterval), overlapping, none), endGap.map ofInterval)

/-- what `gaps_trimmed` returns, `/repo/src/nodit/map.rs:585-651` -/
def gapsTrimmedStart (m : NoditMap K V) (q : Q) :
    Res (Option (Option (Option K) × It.Range K V × Option ((I × I) × (I × I))) × Option K) := do
  invalidIntervalPanic q
  let startGap ← m.gapAt (start q)
  let endGap ← m.gapAt (stop q)
  let (startGap, endGap) : Option (Interval I) × Option (Interval I) := match startGap, endGap with
    | some s, some e =>
      if s.start = e.start then (some { start := start q, stop := stop q }, none)
      else (some { s with start := start q }, some { e with stop := stop q })
    | some s, none => (some { s with start := start q }, none)
    | none, some e => (none, some { e with stop := stop q })
    | none, none => (none, none)
  let overlapping ← m.overlappingStart q
  pure (some (some (startGap.map ofInterval), overlapping, none), endGap.map ofInterval)

/-- `overlaps`, `/repo/src/nodit/map.rs:116-123`, with its call of `next()` -/
def overlapsCalls (m : NoditMap K V) (q : Q) : It.Prog Bool := do
  Prog.lift (invalidIntervalPanic q)
  let s ← Prog.lift (m.overlappingStart q)
  let r ← Prog.call It.range.next s
  pure r.isSome

/-- `contains_interval`, `/repo/src/nodit/map.rs:678-686`, with its call of `next()` -/
def containsIntervalCalls (m : NoditMap K V) (q : Q) : It.Prog Bool := do
  Prog.lift (invalidIntervalPanic q)
  let s ← Prog.lift (m.gapsUntrimmedStart q)
  let r ← Prog.call gapsIt s
  pure r.isNone

end NoditMap

namespace NoditSet
variable {I K Q : Type} [PointType I] [IntervalType I K] [IntervalType I Q]

/-- `iter()` and `into_iter()`, `/repo/src/nodit/set.rs:166-168, 187-213`: the map's iterator followed by `.map(first)` -/
def iterIt : It.DoubleEnded (It.Iter K Unit) K := It.iter.map (fun e => .ok e.1)

/-- its initial state. `nodit/set.rs`, as the method above. -/
def iterStart (s : NoditSet K) : It.Iter K Unit := s.inner.iterStart

/-- `overlapping()`, `/repo/src/nodit/set.rs:40-48` -/
def overlappingIt : It.DoubleEnded (It.Range K Unit) K := It.range.map (fun e => .ok e.1)

/-- its initial state. `nodit/set.rs`, as the method above. -/
def overlappingStart (s : NoditSet K) (q : Q) : Res (It.Range K Unit) := s.inner.overlappingStart q

end NoditSet

namespace Gqdit
variable {I K Q D : Type} [PointType I] [IntervalType I K] [IntervalType I Q] [DecidableEq D]

/-- `gaps_no_identifier`, `/repo/src/gqdit/mod.rs:121-138`, with its calls of `next()` -/
def gapsNoIdentifierCalls (g : Gqdit K D) (q : Q) : It.Prog (List K) := do
  Prog.lift (invalidIntervalPanic q)
  let s ← Prog.lift (g.inner.overlappingStart q)
  Prog.collect (It.filterMap (fun e : K × Finset D => if e.2 = ∅ then some e.1 else none) It.range.next) s

/-- `expand_gaps_at_point_right`, `/repo/src/gqdit/mod.rs:457-471`, with its call of `next()` -/
def expandRightCalls (g : Gqdit K D) (identifier : D) (point : I) : It.Prog (Option K) := do
  let q ← Prog.lift (iu point)
  let s ← Prog.lift (g.inner.overlappingStart q)
  Prog.call
    (It.coalesce (fun x y => do pure (.ok (ofInterval (← mergeOrdered x y) : K)))
      (It.map (fun e : K × Finset D => .ok e.1)
        (It.takeWhile (fun e => validIdentifier identifier e.2) It.range.next)))
    ((s, false), none)

/-- `expand_gaps_at_point_left`, `/repo/src/gqdit/mod.rs:472-490`, with its call of `next()` -/
def expandLeftCalls (g : Gqdit K D) (identifier : D) (point : I) : It.Prog (Option K) := do
  let q ← Prog.lift (ui point)
  let s ← Prog.lift (g.inner.overlappingStart q)
  Prog.call
    (It.coalesce (fun x y => do pure (.ok (ofInterval (← mergeOrdered y x) : K)))
      (It.map (fun e : K × Finset D => .ok e.1)
        (It.takeWhile (fun e => validIdentifier identifier e.2) It.range.rev.next)))
    ((s, false), none)

/-- `gaps_with_identifier`, `/repo/src/gqdit/mod.rs:172-226`, with its calls of `next()` -/
def gapsWithIdentifierCalls (g : Gqdit K D) (identifier : D) (q : Q) : It.Prog (List K) := do
  Prog.lift (invalidIntervalPanic q)
  let s ← Prog.lift (g.inner.overlappingStart q)
  let leftGap ← g.expandLeftCalls identifier (start q)
  let rightGap ← g.expandRightCalls identifier (stop q)
  let (leftGap, rightGap) ← Prog.lift (match leftGap, rightGap with
    | some left, some right =>
      if overlapsOrdered left right then do
        pure (some (ofInterval (← mergeOrdered left right) : K), none)
      else pure (some left, some right)
    | l, r => pure (l, r))
  Prog.collect
    (It.coalesce
      (fun x y => do
        if ← touchesOrdered x y then pure (.ok (ofInterval (← mergeOrdered x y) : K)) else pure (.error (x, y)))
      (It.chain
        (It.chain It.option
          (It.filter
            (fun gap => !InclusiveInterval.containsPoint gap (start q) && !InclusiveInterval.containsPoint gap (stop q))
            (It.filterMap (fun e : K × Finset D => if validIdentifier identifier e.2 then some e.1 else none) It.range.next)))
        It.option))
    ((some (some leftGap, s), rightGap), none)

end Gqdit

namespace ZosditMap
variable {I K Q V : Type} [PointType I] [IntervalType I K] [IntervalType I Q]

/-- the closure of `iter()` and `overlapping()`: `value_store.iter().map(move |value| (interval, value))`, as the initial state
of a slice iterator over the pairs; `/repo/src/zosdit/map.rs:514-516, 542-544` -/
def stores (e : K × List V) : Res (List (K × V)) := .ok (e.2.map (fun v => (e.1, v)))

/-- `iter()`, `/repo/src/zosdit/map.rs:541-545` -/
def iterIt : It.DoubleEnded (Option (List (K × V)) × It.Iter K (List V) × Option (List (K × V))) (K × V) :=
  It.flatMap (It.iter.map stores) It.slice

/-- its initial state. `zosdit/map.rs`, as the method above. -/
def iterStart (m : ZosditMap K V) : Option (List (K × V)) × It.Iter K (List V) × Option (List (K × V)) :=
  (none, It.mkIter m.inner, none)

/-- `overlapping()`, `/repo/src/zosdit/map.rs:501-517` -/
def overlappingIt : It.DoubleEnded (Option (List (K × V)) × It.Range K (List V) × Option (List (K × V))) (K × V) :=
  It.flatMap (It.range.map stores) It.slice

/-- its initial state. `zosdit/map.rs`, as the method above. -/
def overlappingStart (m : ZosditMap K V) (q : Q) :
    Res (Option (List (K × V)) × It.Range K (List V) × Option (List (K × V))) := do
  invalidIntervalPanic q
  pure (none, It.mkRange (inclusiveComp (start q) .lt) (inclusiveComp (stop q) .gt) m.inner, none)

/-- `into_iter()`, `/repo/src/zosdit/map.rs:624-638`: as `iter()`, but only `next()` can be called -/
def intoIterIt : It.Method (Option (List (K × V)) × It.Iter K (List V) × Option (List (K × V))) (K × V) := iterIt.next

end ZosditMap
end Nodit
