import Mathlib.Order.Defs.LinearOrder
import Mathlib.Logic.Basic
/-!
# Point types

Model of `/repo/src/discrete_finite.rs` and of the `PointType` marker trait in
`/repo/src/nodit/map.rs:72-75`.
-/
namespace Nodit

/-- How a Rust call can panic. Every `panic!`/`unwrap`/`unreachable!`/overflow site of the code that is
modelled returns one of these.
* `invalidInterval`: `invalid_interval_panic`, `/repo/src/utils.rs:249-259`
* `unwrapNone`: `Option::unwrap` on `None`
* `unreachable`: `unreachable!()`
* `explicit`: `unwrap_or_else(|_| panic!())` (gqdit)
* `overflow`: integer overflow with overflow checks on. -/
inductive Panic where
  | invalidInterval
  | unwrapNone
  | unreachable
  | explicit
  | overflow
deriving DecidableEq, Repr

/-- Result of a Rust call that may panic. Panics e.g. at `/repo/src/utils.rs:249-259`. -/
abbrev Res (α : Type) := Except Panic α

/-- `Option::unwrap`. Used e.g. at `/repo/src/interval.rs:206`. -/
def unwrap {α : Type} : Option α → Res α
  | some a => .ok a
  | none => .error .unwrapNone

/-- `PointType: Ord + Copy + DiscreteFinite`, `/repo/src/nodit/map.rs:74-75` and
`/repo/src/discrete_finite.rs:7-21`. `Ord` is Mathlib's `LinearOrder` (Rust's documented contract of a total
order). -/
class PointType (I : Type) extends LinearOrder I where
  /-- `DiscreteFinite::MIN`, `/repo/src/discrete_finite.rs:9` -/
  MIN : I
  /-- `DiscreteFinite::MAX`, `/repo/src/discrete_finite.rs:11` -/
  MAX : I
  /-- `DiscreteFinite::up`, `/repo/src/discrete_finite.rs:14-16` -/
  up : I → Option I
  /-- `DiscreteFinite::down`, `/repo/src/discrete_finite.rs:18-20` -/
  down : I → Option I

/-- The documented contract of `DiscreteFinite`, `/repo/src/discrete_finite.rs:8-20`: `MIN`/`MAX` are the
least/greatest values, `up` is "the smallest value greater than `self` if one exists", `down` "the greatest
value smaller than `self` if one exists". -/
class LawfulPoint (I : Type) [PointType I] : Prop where
  min_le : ∀ x : I, PointType.MIN ≤ x
  le_max : ∀ x : I, x ≤ PointType.MAX
  up_some : ∀ x y : I, PointType.up x = some y → x < y ∧ ∀ z, x < z → y ≤ z
  up_none : ∀ x : I, PointType.up x = none → ∀ z : I, z ≤ x
  down_some : ∀ x y : I, PointType.down x = some y → y < x ∧ ∀ z, z < x → z ≤ y
  down_none : ∀ x : I, PointType.down x = none → ∀ z : I, x ≤ z

/-! ## The primitive integers -/

/-- The values of a primitive integer type with range `lo ..= hi`. The types at `/repo/src/discrete_finite.rs:42`. -/
structure BInt (lo hi : Int) where
  val : Int
  ge : lo ≤ val
  le : val ≤ hi
deriving DecidableEq

namespace BInt
variable {lo hi : Int}

@[ext] theorem ext {a b : BInt lo hi} (h : a.val = b.val) : a = b := by
  cases a; cases b; simp_all

/-- Integer value to machine integer, if in range.
Part of `checked_add`/`checked_sub`, `/repo/src/discrete_finite.rs:30-35`. -/
def ofInt? (lo hi n : Int) : Option (BInt lo hi) :=
  if h : lo ≤ n ∧ n ≤ hi then some ⟨n, h.1, h.2⟩ else none

/-- Rust's `checked_add`: `None` on overflow. Used at `/repo/src/discrete_finite.rs:31`. -/
def checkedAdd (a : BInt lo hi) (n : Int) : Option (BInt lo hi) := ofInt? lo hi (a.val + n)
/-- Rust's `checked_sub`: `None` on overflow. Used at `/repo/src/discrete_finite.rs:34`. -/
def checkedSub (a : BInt lo hi) (n : Int) : Option (BInt lo hi) := ofInt? lo hi (a.val - n)

/-- `Ord` of the primitive integers, as used by `discrete_finite.rs`. -/
instance : LE (BInt lo hi) := ⟨fun a b => a.val ≤ b.val⟩
/-- `Ord` of the primitive integers, as used by `discrete_finite.rs`. -/
instance : LT (BInt lo hi) := ⟨fun a b => a.val < b.val⟩
/-- `Ord` of the primitive integers: comparing is computable. -/
instance : DecidableLE (BInt lo hi) := fun a b => inferInstanceAs (Decidable (a.val ≤ b.val))
/-- `Ord` of the primitive integers: comparing is computable. -/
instance : DecidableLT (BInt lo hi) := fun a b => inferInstanceAs (Decidable (a.val < b.val))

theorem le_def {a b : BInt lo hi} : a ≤ b ↔ a.val ≤ b.val := Iff.rfl
theorem lt_def {a b : BInt lo hi} : a < b ↔ a.val < b.val := Iff.rfl

/-- Rust's derived integer `Ord`. -/
instance : LinearOrder (BInt lo hi) where
  le_refl a := by simp [le_def]
  le_trans a b c := by simp only [le_def]; omega
  lt_iff_le_not_ge a b := by simp only [le_def, lt_def]; omega
  le_antisymm a b h1 h2 := by ext; simp only [le_def] at h1 h2; omega
  le_total a b := by simp only [le_def]; omega
  toDecidableLE := inferInstance
  toDecidableEq := inferInstance
  toDecidableLT := inferInstance

/-- `impl DiscreteFinite for $ident` (macro `foo!`), `/repo/src/discrete_finite.rs:23-42`:
`MIN = $ident::MIN`, `MAX = $ident::MAX`, `up = checked_add(1)`, `down = checked_sub(1)`.
The hypothesis `lo ≤ hi` says the type is inhabited. -/
instance pointType [h : Fact (lo ≤ hi)] : PointType (BInt lo hi) where
  MIN := ⟨lo, Int.le_refl _, h.out⟩
  MAX := ⟨hi, h.out, Int.le_refl _⟩
  up a := a.checkedAdd 1
  down a := a.checkedSub 1
end BInt

/-- unsigned integer with `w` bits: `u8`, `u16`, `u32`, `u64`, `u128` and `usize` (any pointer width),
`/repo/src/discrete_finite.rs:42` -/
abbrev UInt' (w : Nat) := BInt 0 (2 ^ w - 1)
/-- signed integer with `w` bits: `i8` ... `i128`, `/repo/src/discrete_finite.rs:42` -/
abbrev SInt' (w : Nat) := BInt (-(2 ^ (w - 1))) (2 ^ (w - 1) - 1)

private theorem two_pow_pos' (w : Nat) : (0 : Int) < 2 ^ w := Int.pow_pos (by decide)

/-- unsigned integers of `w` bits have a smallest and a largest value; a fact about Rust, no lines of `/repo` -/
instance (w : Nat) : Fact ((0 : Int) ≤ 2 ^ w - 1) := ⟨by have := two_pow_pos' w; omega⟩
/-- signed integers of `w` bits, likewise -/
instance (w : Nat) : Fact (-(2 ^ (w - 1)) ≤ (2 : Int) ^ (w - 1) - 1) :=
  ⟨by have := two_pow_pos' (w - 1); omega⟩

/-! ## The README's `WithInfinity` wrapper -/

/-- `enum WithInfinity<T> { Finite(T), Infinity }`, `/repo/README.md` ("Finite-ness" section).
Lines `/repo/README.md:160-164`. -/
inductive WithInfinity (T : Type) where
  | finite (x : T)
  | infinity
deriving DecidableEq

namespace WithInfinity
variable {T : Type}

/-- `Ord for WithInfinity`, `/repo/README.md`: finite values in their order, all below `Infinity`.
Lines `/repo/README.md:166-187`. -/
def le [LE T] : WithInfinity T → WithInfinity T → Prop
  | .finite x, .finite y => x ≤ y
  | .finite _, .infinity => True
  | .infinity, .finite _ => False
  | .infinity, .infinity => True

/-- `/repo/README.md:166-197`, `Ord for WithInfinity` -/
instance [LE T] : LE (WithInfinity T) := ⟨le⟩
/-- `/repo/README.md:166-197`, `Ord for WithInfinity`: comparing is computable -/
instance [LE T] [DecidableLE T] : DecidableLE (WithInfinity T) := fun a b => by
  cases a <;> cases b <;> simp only [LE.le, le] <;> infer_instance

/-- `/repo/README.md:166-197`, `Ord for WithInfinity`, is a total order -/
instance [LinearOrder T] : LinearOrder (WithInfinity T) where
  le_refl a := by cases a <;> simp [LE.le, le]
  le_trans a b c := by
    cases a <;> cases b <;> cases c <;> simp only [LE.le, le] <;> first | exact le_trans | simp
  lt a b := a ≤ b ∧ ¬ b ≤ a
  lt_iff_le_not_ge a b := Iff.rfl
  le_antisymm a b := by
    cases a <;> cases b <;> simp [LE.le, le]
    exact le_antisymm
  le_total a b := by
    cases a <;> cases b <;> simp [LE.le, le]
    exact le_total _ _
  toDecidableLE := inferInstance

/-- `DiscreteFinite for WithInfinity`, `/repo/README.md`. Lines `/repo/README.md:198-231`. -/
instance pointType [PointType T] : PointType (WithInfinity T) where
  MIN := .finite PointType.MIN
  MAX := .infinity
  up
    | .finite x => match PointType.up x with
      | some y => some (.finite y)
      | none => some .infinity
    | .infinity => none
  down
    | .finite x => (PointType.down x).map .finite
    | .infinity => some (.finite PointType.MAX)
end WithInfinity

end Nodit
