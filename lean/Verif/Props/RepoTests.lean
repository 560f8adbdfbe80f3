import Verif.Props.Demo
/-!
# The crate's own unit tests and documentation examples, run on the model

These are not proofs of properties: they validate the hand translation. Each example evaluates the model functions on
the inputs of an assertion of the crate's tests (or documentation) and checks the asserted result in the kernel.
The exhaustive loops of `overlapping_tests`, `overlaps_tests` and `cut_interval_tests` (over 15 intervals) are left
out: they are instances of C05, C24 and C25.
-/
namespace Nodit.RepoTests

/-- `i8` -/
abbrev I8 := SInt' 8
/-- `i32`, the default integer type of the documentation examples -/
abbrev I32 := SInt' 32
/-- a literal -/
class Lit (α : Type) where
  lit : Int → α
instance : Lit I8 := ⟨BInt.wrapInt _ _ (by decide)⟩
instance : Lit I32 := ⟨BInt.wrapInt _ _ (by decide)⟩
instance : Lit Demo.U8 := ⟨Demo.u8⟩

/-- the interval made by a constructor that is known not to panic (`[0, 0]` if it does) -/
def got {α : Type} [Lit α] : Res (Interval α) → Interval α
  | .ok i => i
  | .error _ => ⟨Lit.lit 0, Lit.lit 0⟩

section
variable {α : Type} [PointType α] [Lit α]
def ii' (a b : Int) : Interval α := got (ii (Lit.lit a) (Lit.lit b))
def ie' (a b : Int) : Interval α := got (ie (Lit.lit a) (Lit.lit b))
def ei' (a b : Int) : Interval α := got (ei (Lit.lit a) (Lit.lit b))
def ee' (a b : Int) : Interval α := got (ee (Lit.lit a) (Lit.lit b))
def iu' (a : Int) : Interval α := got (iu (Lit.lit a))
def eu' (a : Int) : Interval α := got (eu (Lit.lit a))
def ui' (a : Int) : Interval α := got (ui (Lit.lit a))
def ue' (a : Int) : Interval α := got (ue (Lit.lit a))
def uu' : Interval α := got uu
end

/-- `Result::unwrap` on a constructed map, in a test -/
def orNew {K V : Type} : Res (Except (OverlapError V) (NoditMap K V)) → NoditMap K V
  | .ok (.ok m) => m
  | _ => NoditMap.new

/-- `NoditMap::from_slice_strict(..).unwrap()` -/
def mk {α V : Type} [PointType α] (l : List (Interval α × V)) : NoditMap (Interval α) V := orNew (NoditMap.fromSliceStrict l)

/-! ## `/repo/src/nodit/map.rs:1516-2260` -/

/-- `/repo/src/nodit/map.rs:1534-1542` -/
def basic : NoditMap (Interval I8) Bool := mk [(ui' 4, false), (ee' 5 7, true), (ii' 7 7, false), (ie' 14 16, true)]
example : basic.iter = [(ui' 4, false), (ee' 5 7, true), (ii' 7 7, false), (ie' 14 16, true)] := by decide

/-! `insert_strict_tests` -/
example : basic.insertStrict (ii' 0 4) false = .ok (basic, .error ⟨false⟩) := by decide
example : basic.insertStrict (ii' 5 6) false = .ok (basic, .error ⟨false⟩) := by decide
example : basic.insertStrict (ii' 4 5) true = .ok (basic, .error ⟨true⟩) := by decide
example : basic.insertStrict (ei' 4 5) true =
    .ok (mk [(ui' 4, false), (ei' 4 5, true), (ee' 5 7, true), (ii' 7 7, false), (ie' 14 16, true)], .ok ()) := by decide

/-! `remove_overlapping_tests` -/
example : basic.removeOverlapping (ii' 5 5 : Interval I8) = .ok (basic, []) := by decide
example : basic.removeOverlapping (uu' : Interval I8) =
    .ok (mk [], [(ui' 4, false), (ee' 5 7, true), (ii' 7 7, false), (ie' 14 16, true)]) := by decide
example : basic.removeOverlapping (ii' 6 7 : Interval I8) =
    .ok (mk [(ui' 4, false), (ie' 14 16, true)], [(ee' 5 7, true), (ii' 7 7, false)]) := by decide
example : basic.removeOverlapping (iu' 6 : Interval I8) =
    .ok (mk [(ui' 4, false)], [(ee' 5 7, true), (ii' 7 7, false), (ie' 14 16, true)]) := by decide

/-! `cut_tests` -/
example : basic.cut (ii' 50 60 : Interval I8) = .ok (basic, []) := by decide
example : basic.cut (uu' : Interval I8) =
    .ok (mk [], [(ui' 4, false), (ee' 5 7, true), (ii' 7 7, false), (ie' 14 16, true)]) := by decide
example : basic.cut (ui' 6 : Interval I8) =
    .ok (mk [(ii' 7 7, false), (ie' 14 16, true)], [(ui' 4, false), (ei' 5 6, true)]) := by decide
example : basic.cut (iu' 6 : Interval I8) =
    .ok (mk [(ui' 4, false)], [(ie' 6 7, true), (ii' 7 7, false), (ie' 14 16, true)]) := by decide

/-! `gaps_untrimmed_tests` -/
example : basic.gapsUntrimmed (ii' 50 60 : Interval I8) = .ok [iu' 16] := by decide
example : basic.gapsUntrimmed (iu' 50 : Interval I8) = .ok [iu' 16] := by decide
example : basic.gapsUntrimmed (ee' 3 16 : Interval I8) = .ok [ei' 4 5, ee' 7 14] := by decide
example : basic.gapsUntrimmed (ei' 3 16 : Interval I8) = .ok [ei' 4 5, ee' 7 14, iu' 16] := by decide
example : basic.gapsUntrimmed (ue' 5 : Interval I8) = .ok [] := by decide
example : basic.gapsUntrimmed (ui' 3 : Interval I8) = .ok [] := by decide
example : basic.gapsUntrimmed (ii' 5 5 : Interval I8) = .ok [ii' 5 5] := by decide
example : basic.gapsUntrimmed (ii' 6 6 : Interval I8) = .ok [] := by decide
example : basic.gapsUntrimmed (ii' 7 7 : Interval I8) = .ok [] := by decide
example : basic.gapsUntrimmed (ii' 8 8 : Interval I8) = .ok [ii' 8 13] := by decide
example : basic.gapsUntrimmed (ii' (-128) 127 : Interval I8) = .ok [ei' 4 5, ee' 7 14, ii' 16 127] := by decide
example : (mk [((ii' (-128) 127 : Interval I8), false)]).gapsTrimmed (uu' : Interval I8) = .ok [] := by decide

/-! `gaps_trimmed_tests` -/
example : basic.gapsTrimmed (ii' 50 60 : Interval I8) = .ok [ii' 50 60] := by decide
example : basic.gapsTrimmed (iu' 50 : Interval I8) = .ok [iu' 50] := by decide
example : basic.gapsTrimmed (ee' 3 16 : Interval I8) = .ok [ei' 4 5, ee' 7 14] := by decide
example : basic.gapsTrimmed (ei' 3 16 : Interval I8) = .ok [ei' 4 5, ee' 7 14, ii' 16 16] := by decide
example : basic.gapsTrimmed (ue' 5 : Interval I8) = .ok [] := by decide
example : basic.gapsTrimmed (ui' 3 : Interval I8) = .ok [] := by decide
example : basic.gapsTrimmed (ii' 5 5 : Interval I8) = .ok [ii' 5 5] := by decide
example : basic.gapsTrimmed (ii' 6 6 : Interval I8) = .ok [] := by decide
example : basic.gapsTrimmed (ii' 7 7 : Interval I8) = .ok [] := by decide
example : basic.gapsTrimmed (ii' 8 8 : Interval I8) = .ok [ii' 8 8] := by decide
example : basic.gapsTrimmed (ii' (-128) 127 : Interval I8) = .ok [ei' 4 5, ee' 7 14, ii' 16 127] := by decide

/-! `insert_merge_touching_tests` -/
example : basic.insertMergeTouching (ii' 0 4) false = .ok (basic, .error ⟨false⟩) := by decide
example : basic.insertMergeTouching (ee' 7 10) false =
    .ok (mk [(ui' 4, false), (ee' 5 7, true), (ie' 7 10, false), (ie' 14 16, true)], .ok (ie' 7 10)) := by decide
example : basic.insertMergeTouching (ee' 7 11) true =
    .ok (mk [(ui' 4, false), (ee' 5 7, true), (ie' 7 11, true), (ie' 14 16, true)], .ok (ie' 7 11)) := by decide
example : basic.insertMergeTouching (ee' 7 14) false =
    .ok (mk [(ui' 4, false), (ee' 5 7, true), (ie' 7 16, false)], .ok (ie' 7 16)) := by decide

/-! `insert_merge_touching_if_values_equal_tests` -/
example : basic.insertMergeTouchingIfValuesEqual (ii' 0 4) false = .ok (basic, .error ⟨false⟩) := by decide
example : basic.insertMergeTouchingIfValuesEqual (ee' 7 10) false =
    .ok (mk [(ui' 4, false), (ee' 5 7, true), (ie' 7 10, false), (ie' 14 16, true)], .ok (ie' 7 10)) := by decide
example : basic.insertMergeTouchingIfValuesEqual (ee' 7 11) true =
    .ok (mk [(ui' 4, false), (ee' 5 7, true), (ii' 7 7, false), (ee' 7 11, true), (ie' 14 16, true)], .ok (ee' 7 11)) := by
  decide
example : basic.insertMergeTouchingIfValuesEqual (ee' 7 14) false =
    .ok (mk [(ui' 4, false), (ee' 5 7, true), (ie' 7 14, false), (ie' 14 16, true)], .ok (ie' 7 14)) := by decide

/-! `insert_merge_overlapping_tests` -/
example : basic.insertMergeOverlapping (ii' 0 2) true =
    .ok (mk [(ui' 4, true), (ee' 5 7, true), (ii' 7 7, false), (ie' 14 16, true)], ui' 4) := by decide
example : basic.insertMergeOverlapping (ie' 14 16) false =
    .ok (mk [(ui' 4, false), (ee' 5 7, true), (ii' 7 7, false), (ie' 14 16, false)], ie' 14 16) := by decide
example : basic.insertMergeOverlapping (ii' 6 11) false =
    .ok (mk [(ui' 4, false), (ei' 5 11, false), (ie' 14 16, true)], ei' 5 11) := by decide
example : basic.insertMergeOverlapping (ii' 15 18) true =
    .ok (mk [(ui' 4, false), (ee' 5 7, true), (ii' 7 7, false), (ii' 14 18, true)], ii' 14 18) := by decide
example : basic.insertMergeOverlapping uu' false = .ok (mk [(uu', false)], uu') := by decide

/-! `insert_merge_touching_or_overlapping_tests` -/
example : (mk [((ie' 1 4 : Interval I8), false)]).insertMergeTouchingOrOverlapping (ie' 0 1) true =
    .ok (mk [(ie' 0 4, true)], ie' 0 4) := by decide
example : basic.insertMergeTouchingOrOverlapping (ii' 0 2) true =
    .ok (mk [(ui' 4, true), (ee' 5 7, true), (ii' 7 7, false), (ie' 14 16, true)], ui' 4) := by decide
example : basic.insertMergeTouchingOrOverlapping (ie' 14 16) false =
    .ok (mk [(ui' 4, false), (ee' 5 7, true), (ii' 7 7, false), (ie' 14 16, false)], ie' 14 16) := by decide
example : basic.insertMergeTouchingOrOverlapping (ii' 6 11) false =
    .ok (mk [(ui' 4, false), (ei' 5 11, false), (ie' 14 16, true)], ei' 5 11) := by decide
example : basic.insertMergeTouchingOrOverlapping (ii' 15 18) true =
    .ok (mk [(ui' 4, false), (ee' 5 7, true), (ii' 7 7, false), (ii' 14 18, true)], ii' 14 18) := by decide
example : basic.insertMergeTouchingOrOverlapping uu' false = .ok (mk [(uu', false)], uu') := by decide
example : basic.insertMergeTouchingOrOverlapping (ii' 7 14) false =
    .ok (mk [(ui' 4, false), (ee' 5 16, false)], ee' 5 16) := by decide

/-! `config_tests` -/
example : config (ie' 1 4 : Interval I8) (ie' 6 8 : Interval I8) = .ok .leftFirstNonOverlapping := by decide
example : config (ie' 1 4 : Interval I8) (ie' 2 8 : Interval I8) = .ok .leftFirstPartialOverlap := by decide
example : config (ie' 1 4 : Interval I8) (ie' 2 3 : Interval I8) = .ok .leftContainsRight := by decide
example : config (ie' 6 8 : Interval I8) (ie' 1 4 : Interval I8) = .ok .rightFirstNonOverlapping := by decide
example : config (ie' 2 8 : Interval I8) (ie' 1 4 : Interval I8) = .ok .rightFirstPartialOverlap := by decide
example : config (ie' 2 3 : Interval I8) (ie' 1 4 : Interval I8) = .ok .rightContainsLeft := by decide

/-! `cut_interval_should_return_valid_intervals` -/
example : cutInterval (ie' 3 8 : Interval I8) (ie' 5 8 : Interval I8) = .ok ⟨some (ii' 3 4), some (ii' 5 7), none⟩ := by decide
example : cutInterval (ie' 3 8 : Interval I8) (ie' 3 5 : Interval I8) = .ok ⟨none, some (ii' 3 4), some (ii' 5 7)⟩ := by decide

/-! `test_intersection`, `test_translate` -/
example : InclusiveInterval.intersection (ii' 5 10 : Interval I32) (ii' 8 13 : Interval I32) = some (ii' 8 10) := by decide
example : InclusiveInterval.intersection (ii' 5 10 : Interval I32) (ii' 10 13 : Interval I32) = some (ii' 10 10) := by decide
example : InclusiveInterval.intersection (ii' 5 10 : Interval I32) (ii' 11 13 : Interval I32) = none := by decide
example : InclusiveInterval.translate BInt.addChecked (ii' 5 10 : Interval I32) (Lit.lit 3) = .ok (ii' 8 13) := by decide
example : InclusiveInterval.translate BInt.addChecked (ii' 5 10 : Interval I32) (Lit.lit (-2)) = .ok (ii' 3 8) := by decide
example : InclusiveInterval.translate BInt.addWrapping (ii' 5 10 : Interval I32) (Lit.lit (-2)) = .ok (ii' 3 8) := by decide

/-! ## Documentation examples of `/repo/src/nodit/map.rs` -/

/-- `/repo/src/nodit/map.rs:134-140`, used by several examples -/
def docMap : NoditMap (Interval I32) Bool := mk [(ie' 1 4, false), (ie' 4 8, true), (ie' 8 100, false)]

example : (mk [((ie' 5 10 : Interval I32), false)]).overlaps (ii' 1 3 : Interval I32) = .ok false := by decide
example : (mk [((ie' 5 10 : Interval I32), false)]).overlaps (ie' 4 5 : Interval I32) = .ok false := by decide
example : (mk [((ie' 5 10 : Interval I32), false)]).overlaps (ii' 4 5 : Interval I32) = .ok true := by decide
example : (mk [((ie' 5 10 : Interval I32), false)]).overlaps (ie' 4 6 : Interval I32) = .ok true := by decide
example : docMap.overlapping (ie' 2 8 : Interval I32) = .ok [(ie' 1 4, false), (ie' 4 8, true)] := by decide
example : docMap.overlappingMut (ie' 3 7 : Interval I32) (fun k _ => if k = ie' 4 8 then false else true) =
    .ok (mk [(ie' 1 4, true), (ie' 4 8, false), (ie' 8 100, false)]) := by decide
example : docMap.getAtPoint (Lit.lit 3) = .ok (some false) ∧ docMap.getAtPoint (Lit.lit 4) = .ok (some true) ∧
    docMap.getAtPoint (Lit.lit 101) = .ok none := by decide
example : ((mk [((ie' 1 4 : Interval I32), false)]).getAtPointMut (Lit.lit 2) (fun _ => true)).1.getAtPoint (Lit.lit 1) =
    .ok (some true) := by decide
example : docMap.containsPoint (Lit.lit 3) = .ok true ∧ docMap.containsPoint (Lit.lit 4) = .ok true ∧
    docMap.containsPoint (Lit.lit 101) = .ok false := by decide
/-- `/repo/src/nodit/map.rs:291-309` -/
def docMap2 : NoditMap (Interval I32) Bool := mk [(ie' 1 4, false), (ie' 4 6, true), (ie' 8 100, false)]
example : docMap2.getKeyValueAtPoint (Lit.lit 3) = .ok (.ok (ie' 1 4, false)) ∧
    docMap2.getKeyValueAtPoint (Lit.lit 5) = .ok (.ok (ie' 4 6, true)) ∧
    docMap2.getKeyValueAtPoint (Lit.lit 7) = .ok (.error (ie' 6 8)) ∧
    docMap2.getKeyValueAtPoint (Lit.lit 101) = .ok (.error (iu' 100)) := by decide
example : docMap.removeOverlapping (ie' 2 8 : Interval I32) =
    .ok (mk [(ie' 8 100, false)], [(ie' 1 4, false), (ie' 4 8, true)]) := by decide
example : docMap.cut (ie' 2 40 : Interval I32) = .ok (mk [(ie' 1 2, false), (ie' 40 100, false)],
    [(ie' 2 4, false), (ie' 4 8, true), (ie' 8 40, false)]) := by decide
/-- `/repo/src/nodit/map.rs:481-496, 569-584` -/
def docMap3 : NoditMap (Interval I32) Bool := mk [(ie' 1 3, false), (ie' 5 7, true), (ie' 9 100, false)]
example : docMap3.gapsUntrimmed (ii' 4 120 : Interval I32) = .ok [ie' 3 5, ie' 7 9, iu' 100] := by decide
example : docMap3.gapsTrimmed (ii' 4 120 : Interval I32) = .ok [ie' 4 5, ie' 7 9, ii' 100 120] := by decide
/-- `/repo/src/nodit/map.rs:662-677` -/
def docMap4 : NoditMap (Interval I32) Bool := mk [(ie' 1 3, false), (ie' 5 8, true), (ie' 8 100, false)]
example : docMap4.containsInterval (ie' 1 3 : Interval I32) = .ok true ∧ docMap4.containsInterval (ie' 2 6 : Interval I32) = .ok false ∧
    docMap4.containsInterval (ie' 6 100 : Interval I32) = .ok true := by decide
example : (mk [((ie' 5 10 : Interval I32), 9)]).insertStrict (ie' 5 10) 2 = .ok (mk [(ie' 5 10, 9)], .error ⟨2⟩) ∧
    (mk [((ie' 5 10 : Interval I32), 9)]).len = 1 := by decide
/-- `/repo/src/nodit/map.rs:800-806` and the other `insert_merge_*` examples -/
def docMap5 : NoditMap (Interval I32) Bool := mk [(ie' 1 4, false), (ie' 6 8, true)]
example : docMap5.insertMergeTouching (ie' 4 6) true = .ok (mk [(ie' 1 8, true)], .ok (ie' 1 8)) ∧
    (mk [((ie' 1 8 : Interval I32), true)]).insertMergeTouching (ie' 4 8) false = .ok (mk [(ie' 1 8, true)], .error ⟨false⟩) ∧
    (mk [((ie' 1 8 : Interval I32), true)]).insertMergeTouching (ie' 10 16) false =
      .ok (mk [(ie' 1 8, true), (ie' 10 16, false)], .ok (ie' 10 16)) := by decide
example : docMap5.insertMergeTouchingIfValuesEqual (ie' 4 6) true =
      .ok (mk [(ie' 1 4, false), (ie' 4 8, true)], .ok (ie' 4 8)) ∧
    (mk [((ie' 1 4 : Interval I32), false), (ie' 4 8, true)]).insertMergeTouchingIfValuesEqual (ie' 4 8) false =
      .ok (mk [(ie' 1 4, false), (ie' 4 8, true)], .error ⟨false⟩) ∧
    (mk [((ie' 1 4 : Interval I32), false), (ie' 4 8, true)]).insertMergeTouchingIfValuesEqual (ie' 10 16) false =
      .ok (mk [(ie' 1 4, false), (ie' 4 8, true), (ie' 10 16, false)], .ok (ie' 10 16)) := by decide
example : docMap5.insertMergeOverlapping (ie' 4 6) true =
      .ok (mk [(ie' 1 4, false), (ie' 4 6, true), (ie' 6 8, true)], ie' 4 6) ∧
    (mk [((ie' 1 4 : Interval I32), false), (ie' 4 6, true), (ie' 6 8, true)]).insertMergeOverlapping (ie' 4 8) false =
      .ok (mk [(ie' 1 4, false), (ie' 4 8, false)], ie' 4 8) ∧
    (mk [((ie' 1 4 : Interval I32), false), (ie' 4 8, false)]).insertMergeOverlapping (ie' 10 16) false =
      .ok (mk [(ie' 1 4, false), (ie' 4 8, false), (ie' 10 16, false)], ie' 10 16) := by decide
example : docMap5.insertMergeTouchingOrOverlapping (ie' 4 6) true = .ok (mk [(ie' 1 8, true)], ie' 1 8) ∧
    (mk [((ie' 1 8 : Interval I32), true)]).insertMergeTouchingOrOverlapping (ie' 4 8) false =
      .ok (mk [(ie' 1 8, false)], ie' 1 8) ∧
    (mk [((ie' 1 8 : Interval I32), false)]).insertMergeTouchingOrOverlapping (ie' 10 16) false =
      .ok (mk [(ie' 1 8, false), (ie' 10 16, false)], ie' 10 16) := by decide
example : (mk [((ie' 2 8 : Interval I32), false)]).insertOverwrite (ie' 4 6) true =
    .ok (mk [(ie' 2 4, false), (ie' 4 6, true), (ie' 6 8, false)], [(ie' 4 6, false)]) := by decide
example : docMap.firstKeyValue = some (ie' 1 4, false) ∧ docMap.lastKeyValue = some (ie' 8 100, false) := by decide

/-! ## Documentation examples of `/repo/src/gqdit/mod.rs` -/

section
/-- `/repo/src/gqdit/mod.rs:95-105`: the map of most of its examples -/
def gq : Res (Gqdit (Interval I8) Nat) := do
  let g ← Gqdit.new
  let g ← g.insert {0} (ii' 0 4)
  let g ← g.insert {2} (ii' 2 6)
  g.insert {4} (ii' 10 40)

example : (gq >>= fun g => g.gapsNoIdentifier (ii' 0 100 : Interval I8)) = .ok [ii' 7 9, iu' 41] := by decide
example : (gq >>= fun g => g.gapsWithIdentifier 2 (ii' 0 100 : Interval I8)) = .ok [ii' 5 9, iu' 41] := by decide
example : (gq >>= fun g => g.cutWithIdentifiers {2, 4} (ii' 0 20 : Interval I8) >>= fun g =>
    g.gapsNoIdentifier (ii' 0 100 : Interval I8)) = .ok [ii' 5 20, iu' 41] := by decide
/-- the next example uses `u8` points -/
def gqU : Res (Gqdit (Interval Demo.U8) Nat) := do
  let g ← Gqdit.new
  let g ← g.insert {0} (ii' 0 4)
  let g ← g.insert {2} (ii' 2 6)
  g.insert {4} (ii' 10 40)
example : (gqU >>= fun g => g.cutAllIdentifiers (ii' 0 20 : Interval Demo.U8) >>= fun g =>
    g.gapsNoIdentifier (ii' 0 100 : Interval Demo.U8)) = .ok [ii' 0 20, iu' 41] := by decide
example : (do
    let g ← (Gqdit.new : Res (Gqdit (Interval I8) Nat))
    let g ← g.insert {0} (ii' 0 4)
    let h ← (Gqdit.new : Res (Gqdit (Interval I8) Nat))
    let h ← h.insert {0} (ii' 6 10)
    let (g, _) ← g.append h
    g.gapsNoIdentifier (ii' 0 10 : Interval I8)) = .ok [ii' 5 5] := by decide
example : (do
    let g ← (Gqdit.new : Res (Gqdit (Interval I8) Nat))
    let g ← g.insert {0} (ii' 2 6)
    let g ← g.insert {1} (ii' 4 8)
    [0, 2, 5, 8, 10].mapM (fun p => g.identifiersAtPoint (Lit.lit p))) = .ok [∅, {0}, {0, 1}, {1}, ∅] := by decide
end

/-! ## Unit tests and documentation examples of `/repo/src/zosdit/map.rs` -/

section
/-- `ZosditMap::from_slice_strict_back(..).unwrap()` -/
def mkZ {α V : Type} [PointType α] (l : List (Interval α × V)) : ZosditMap (Interval α) V :=
  match ZosditMap.fromSliceStrictBack l (fun _ => 0) with
  | .ok (.ok m) => m
  | _ => ZosditMap.new

/-- `is_nonzero_overlap_tests`, `/repo/src/zosdit/map.rs:734-774` -/
def zeroOverlapCases : List ((Int × Int) × List (Int × Int) × Bool) :=
  [((4, 10), [], true), ((4, 10), [(3, 5)], false), ((4, 10), [(3, 11)], false), ((4, 10), [(3, 4)], true),
   ((4, 10), [(4, 5)], false), ((4, 10), [(10, 11)], true), ((4, 10), [(9, 10)], false), ((4, 10), [(3, 11)], false),
   ((4, 10), [(4, 10)], false), ((4, 10), [(5, 9)], false), ((4, 10), [(3, 5), (9, 11)], false),
   ((4, 10), [(4, 5), (9, 10)], false), ((4, 10), [(3, 4), (10, 11)], true), ((4, 4), [(3, 3)], true),
   ((4, 4), [(4, 4)], true), ((4, 4), [(5, 5)], true), ((4, 4), [(3, 4)], true), ((4, 4), [(4, 5)], true),
   ((4, 4), [(3, 5)], false)]
example : ∀ c ∈ zeroOverlapCases, (mkZ (c.2.1.map (fun i => ((ii' i.1 i.2 : Interval I8), ())))).isZeroOverlap
    (ii' c.1.1 c.1.2 : Interval I8) = .ok c.2.2 := by decide

/-! `insert_strict_back_tests` -/
example : (mkZ ([] : List (Interval Demo.U8 × Int))).length = 0 ∧ (mkZ [((ii' 0 0 : Interval Demo.U8), -8)]).length = 1 ∧
    (mkZ [((ii' 0 0 : Interval Demo.U8), -8), (ii' 0 255, -4)]).length = 2 ∧
    (mkZ [((ii' 0 0 : Interval Demo.U8), -8), (ii' 0 255, -4)]).insertStrictBack (ii' 9 10) (-4) 0 =
      .ok (mkZ [((ii' 0 0 : Interval Demo.U8), -8), (ii' 0 255, -4)], .error ⟨-4⟩) := by decide

/-! `get_last_value_at_point_tests` -/
example : [0, 2, 4, 6, 8, 10, 255].map (fun p => (mkZ [((ii' 0 4 : Interval Demo.U8), -1), (ii' 4 8, -2), (ii' 8 255, -3)]).getLastValueAtPoint
    (Lit.lit p)) = [some (-1), some (-1), some (-2), some (-2), some (-3), some (-3), some (-3)] := by decide

/-! `cut_tests` -/
example : (mkZ [((ii' 0 0 : Interval Demo.U8), -8), (ii' 0 255, -4)]).iter = [(ii' 0 0, -8), (ii' 0 255, -4)] ∧
    (mkZ [((ii' 0 0 : Interval Demo.U8), -8), (ii' 0 255, -4)]).cut (ii' 0 255 : Interval Demo.U8) =
      .ok (ZosditMap.new, [(ii' 0 0, -8), (ii' 0 255, -4)]) := by decide

/-- the documentation examples at `/repo/src/zosdit/map.rs:160-175, 207-222, 388-418` -/
def docZ : ZosditMap (Interval I32) Int := mkZ [(ii' 0 4, -2), (ii' 4 4, -4), (ii' 4 4, -8), (ii' 4 8, -10)]
example : docZ.firstKeyValue = some (ii' 0 4, -2) ∧ docZ.lastKeyValue = some (ii' 4 8, -10) := by decide
example : docZ.getLastValueAtPoint (Lit.lit 0) = some (-2) ∧ docZ.getLastValueAtPoint (Lit.lit 4) = some (-10) ∧
    docZ.getLastValueAtPoint (Lit.lit 10) = none := by decide
/-- alternating `get_last_value_at_point` and `remove_last_value_at_point` -/
def getRemove (m : ZosditMap (Interval I32) Int) (p : I32) : Nat → Res (List (Option Int × Option Int))
  | 0 => pure []
  | n + 1 => do
    let (m', r) ← m.removeLastValueAtPoint p
    let l ← getRemove m' p n
    pure ((m.getLastValueAtPoint p, r) :: l)
example : getRemove docZ (Lit.lit 4) 5 = .ok [(some (-10), some (-10)), (some (-8), some (-8)), (some (-4), some (-4)),
    (some (-2), some (-2)), (none, none)] := by decide
example : (mkZ [((ii' 0 10 : Interval I32), -2), (ii' 10 10, -4), (ii' 10 10, -6)]).iter =
    [(ii' 0 10, -2), (ii' 10 10, -4), (ii' 10 10, -6)] := by decide
example : [((0, 0), true), ((10, 10), true), ((10, 12), true), ((0, 2), false), ((4, 4), false), ((4, 12), false)].all
    (fun c => (mkZ [((ii' 0 10 : Interval I32), -2), (ii' 10 10, -4), (ii' 10 10, -6)]).isZeroOverlap
      (ii' c.1.1 c.1.2 : Interval I32) == .ok c.2) = true := by decide
example : (mkZ [((ii' 0 4 : Interval I32), -2), (ii' 4 4, -4), (ii' 4 4, -6), (ii' 4 8, -8)]).length = 4 ∧
    (mkZ [((ii' 0 4 : Interval I32), -2), (ii' 4 4, -4), (ii' 4 4, -6), (ii' 4 8, -8)]).cut (ee' 2 6 : Interval I32) =
      .ok (mkZ [(ii' 0 2, -2), (ii' 6 8, -8)], [(ii' 3 4, -2), (ii' 4 4, -4), (ii' 4 4, -6), (ii' 4 5, -8)]) := by decide
example : (mkZ [((ii' 0 4 : Interval I32), -2), (ii' 4 4, -4), (ii' 4 4, -6), (ii' 4 8, -8), (ii' 8 12, -10)]).overlapping
    (ii' 4 4 : Interval I32) = .ok [(ii' 0 4, -2), (ii' 4 4, -4), (ii' 4 4, -6), (ii' 4 8, -8)] := by decide
end

/-! ## Documentation examples of `/repo/src/interval.rs` -/

example : (ii' 4 4 : Interval I32) = ee' 3 5 := by decide
/-- `should_panic` -/
example : ee (Lit.lit 4 : I32) (Lit.lit 4) = .error .invalidInterval := by decide
example : (ui' 1 : Interval I32) ≠ ui' 4 ∧ (ue' 1 : Interval I32) ≠ ue' 4 ∧ (iu' 1 : Interval I32) ≠ iu' 4 ∧
    (eu' 1 : Interval I32) ≠ eu' 4 ∧ (ii' 0 4 : Interval I32) ≠ ii' 2 6 ∧ (ie' 0 4 : Interval I32) ≠ ie' 2 6 ∧
    (ei' 0 4 : Interval I32) ≠ ei' 2 6 ∧ (ee' 0 4 : Interval I32) ≠ ee' 2 6 := by decide
example : [3, 4, 5, 6].map (fun p => InclusiveInterval.containsPoint (ii' 4 5 : Interval I32) (Lit.lit p)) =
    [false, true, true, false] := by decide
example : [(4, 4), (5, 5), (4, 6), (4, 5)].map (fun i => InclusiveInterval.containsInterval (ii' 4 5 : Interval I32)
    (ii' i.1 i.2 : Interval I32)) = [true, true, false, true] := by decide
example : InclusiveInterval.isSingular (ii' 4 4 : Interval I32) = true ∧ InclusiveInterval.isSingular (ii' 4 5 : Interval I32) = false ∧
    InclusiveInterval.isSingular (ie' 4 5 : Interval I32) = true := by decide
example : InclusiveInterval.intersection (ii' 4 6 : Interval I32) (ie' 6 8 : Interval I32) = some (ii' 6 6) ∧
    InclusiveInterval.intersection (ii' 4 6 : Interval I32) (ee' 6 8 : Interval I32) = none := by decide
example : InclusiveInterval.overlaps (ii' 4 6 : Interval I32) (ii' 6 8 : Interval I32) = .ok true ∧
    InclusiveInterval.overlaps (ii' 4 6 : Interval I32) (ii' 8 10 : Interval I32) = .ok false := by decide
example : InclusiveInterval.translate BInt.addChecked (ii' 4 6 : Interval I32) (Lit.lit 8) = .ok (ii' 12 14) ∧
    InclusiveInterval.translate BInt.addChecked (ee' 4 6 : Interval I32) (Lit.lit (-4)) = .ok (ee' 0 2) := by decide
example : [(ii' 4 6 : Interval I32), ie' 4 6, ei' 4 6, ee' 4 6].map (InclusiveInterval.width BInt.subChecked) =
    [.ok (Lit.lit 2), .ok (Lit.lit 1), .ok (Lit.lit 1), .ok (Lit.lit 0)] := by decide

end Nodit.RepoTests
