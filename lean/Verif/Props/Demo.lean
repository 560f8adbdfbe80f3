import Verif.Props.Points
import Verif.History
/-!
# A concrete map used to show that the theorems' hypotheses can be met
-/
namespace Nodit.Demo
open Spec

/-- `u8` -/
abbrev U8 := UInt' 8
/-- a `u8` literal -/
def u8 (n : Int) : U8 := BInt.wrapInt 0 255 (by decide) n
/-- an `Interval<u8>` literal -/
def iv (a b : Int) : Interval U8 := ⟨u8 a, u8 b⟩

/-- a history with overwriting, merging, cutting and a panicking call -/
def ops : List (Op U8 (Interval U8) Nat) :=
  [.insertStrict (iv 0 4) 7, .insertStrict (iv 10 20) 8, .insertOverwrite (iv 13 15) 9,
   .insertMergeTouching (iv 250 255) 1, .cut (iv 2 2), .insertStrict (iv 9 5) 3]

/-- the map it leads to -/
def m : NoditMap (Interval U8) Nat := (NoditMap.new.run ops).1

theorem m_iter : m.iter =
    [(iv 0 1, 7), (iv 3 4, 7), (iv 10 12, 8), (iv 13 15, 9), (iv 16 20, 8), (iv 250 255, 1)] := by decide

end Nodit.Demo
