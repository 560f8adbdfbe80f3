import Verif.NoditSet
import Verif.Gqdit
import Verif.Zosdit
/-!
# `==` on the containers

`#[derive(PartialEq)]` on `NoditMap` (`/repo/src/nodit/map.rs:58-62`), `NoditSet` (`/repo/src/nodit/set.rs:22-25`) and `ZosditMap`
(`/repo/src/zosdit/map.rs:61-67`), and `impl PartialEq for Gqdit` (`/repo/src/gqdit/mod.rs:537-546`). `BTreeMap`'s own `PartialEq`
(of `btree_monstrousity`, a copy of the standard library's) compares the lengths and then the entries in order:
`self.len() == other.len() && self.iter().zip(other).all(|(a, b)| a == b)`. `PhantomData`s are equal. The `PartialEq` of the keys and
values is the user's (`BEq`).
-/
namespace Nodit
variable {K V D : Type} [BEq K] [BEq V] [DecidableEq D]

/-- `impl PartialEq for BTreeMap`. Used by the derive at `/repo/src/nodit/map.rs:58`. -/
def entriesEqual {A : Type} [BEq A] (l l' : List (K × A)) : Bool :=
  l.length == l'.length && (l.zip l').all (fun p => p.1.1 == p.2.1 && p.1.2 == p.2.2)

/-- derived `PartialEq` of `NoditMap`, `/repo/src/nodit/map.rs:58-62` -/
def NoditMap.equal (m m' : NoditMap K V) : Bool := entriesEqual m.inner m'.inner

/-- derived `PartialEq` of `NoditSet`, `/repo/src/nodit/set.rs:22-25` -/
def NoditSet.equal (s s' : NoditSet K) : Bool := s.inner.equal s'.inner

/-- derived `PartialEq` of `ZosditMap`, `/repo/src/zosdit/map.rs:61-67`: the counter `len`, then the entries, the stores (`SmallVec`s)
element by element -/
def ZosditMap.equal (m m' : ZosditMap K V) : Bool := m.len == m'.len && entriesEqual m.inner m'.inner

/-- `impl PartialEq for Gqdit`, `/repo/src/gqdit/mod.rs:537-546` -/
def Gqdit.equal (g g' : Gqdit K D) : Bool := g.inner.equal g'.inner

/-- derived `PartialEq` of `Interval`, `/repo/src/interval.rs:40-47` -/
def Interval.equal {I : Type} [BEq I] (i j : Interval I) : Bool := i.start == j.start && i.stop == j.stop

/-- derived `Hash` of `Interval`, `/repo/src/interval.rs:40-47`: the fields are fed to the hasher in the order of their declaration.
`feed` is the user's `Hash::hash` of a point, as a change of the hasher's state. -/
def Interval.hash {I σ : Type} (feed : I → σ → σ) (i : Interval I) (s : σ) : σ := feed i.stop (feed i.start s)
end Nodit
