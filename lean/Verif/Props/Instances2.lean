import Verif.Props.Instances
import Verif.Props.CloneCount
import Verif.Props.CrashZProps
import Verif.Props.CustomTypes
import Verif.Props.GqditHoles
import Verif.Props.Intervals
import Verif.Props.ProgramProps
import Verif.Props.SerdeExact
import Verif.Props.SerdeIntervalProps
import Verif.Props.SetAlgebra
import Verif.Props.SetHistory
import Verif.Props.SetTransfer
import Verif.Props.ZosditExact
/-!
# Further concrete cases meeting the hypotheses of theorems

As in `Verif/Props/Instances.lean`: each `example` applies the theorem it names to concrete arguments. No claim of its own.
-/
set_option linter.unusedSectionVars false
namespace Nodit.Instances
open Spec PointType Demo

/-! ## C02, C08 -/
example := C02_panics_iff_invalid_argument (m := m) ⟨ops, rfl⟩ (.insertOverwrite (iv 11 251) 3)
example := C08_cut_exact wf (iv 11 251) (by decide)

/-! ## C17 -/
example := (C17_from_slice_strict_first_offender (k := iv 3 6) (v := 9) (post := [(iv 2 1, 0)]) shuffled_valid shuffled_disjoint).1 (by decide) (by decide)
example := (C17_from_iter_strict_iff shuffled_valid).2 shuffled_disjoint

/-! ## C22 -/
example := C22_reference_machine_deterministic (S := s.keySet) (op := .cut (iv 9 5)) (Or.inl ⟨by simp [SetCall.Bad]; decide, rfl, rfl⟩)
  (Or.inl ⟨by simp [SetCall.Bad]; decide, rfl, rfl⟩)
example := C22_reference_history_unique (C22_set_refines_set_of_intervals setCalls).2
example := C22_set_refines_point_set sops (by simp [sops, SetOp.Pointwise]) (u8 3)
example := (C22_set_from_iter (l := [iv 10 12, iv 0 4, iv 5 9]) (by decide)).1 (by decide)
example := (C22_set_from_iter (l := [iv 10 12, iv 0 4, iv 4 9]) (by decide)).2 (by decide)

/-! ## C24 -/
example := C24_overlaps_iff_common_point (a := iv 0 9) (b := (⟨u8 5, u8 19, 3⟩ : Labelled)) (by decide) (by decide)

/-! ## C33 - C35 -/
/-- the same contents by other calls -/
def gh2 : GqHist U8 (Interval U8) Nat :=
  .cutAllIdentifiers (.insert (.insert (.insert (.insert .new {1} (iv 0 7)) {2} (iv 5 19)) {1} (iv 20 29)) {1, 3} (iv 50 59)) (iv 52 52)
theorem gh2_eval : Gqdit.eval gh2 = .ok gq := by decide
example := (C33_canonical gh_eval gh2_eval).1 (by decide)
example := (C34_history_panics_iff (K := Interval U8) (GqHist.insert gh {1} (iv 9 5))).1.2 (Or.inr (by decide))
example := C35_append_partial gh_eval gh2_eval

/-! ## C39, C40, C42, C43, C45 -/
theorem zops_nc : ∀ op ∈ zops.take 5, op.isCut = false := by decide
theorem zops_nr : ∀ op ∈ zops.take 5, op.isRemove = false := by decide
example := C39_insert_strict_back_partial zops (k := iv 30 30) (by decide) 9 0 (fun e he => by
  have : ∀ e ∈ (ZosditMap.after zops).iter, start e.1 ≤ stop e.1 ∧ (stop e.1 ≤ u8 30 ∨ u8 30 ≤ start e.1) := by decide
  exact zo ⟨(this e he).1, by decide, (this e he).2⟩)
example := C40_get_last_value_partial zops (u8 7) ⟨(iv 6 8, 3), by decide, by decide⟩ (Or.inl ⟨(iv 6 8, 3), by decide, by decide, u8 8, by decide, by decide⟩)
example := C40_get_last_value_partial zops (u8 30) ⟨(iv 30 30, 6), by decide, by decide⟩ (Or.inr (fun e he x hx => by
  have : ∀ e ∈ (ZosditMap.after zops).iter, stop e.1 ≤ u8 30 := by decide
  exact le_trans hx.2 (this e he)))
example := C42_len_partial (zops.take 5) zops_nr
example := C42_empty_sound ([.insertStrictBack (iv 0 4) 1 0, .cut (iv 0 4)] : List (ZOp U8 (Interval U8) Nat)) (by decide)
/-- the entry `0..=2` reaches below the cut and overlaps it -/
example := C43_cut_partial zops (q := iv 1 7) (by decide) (fun _ => ⟨(iv 0 2, 1), by decide, ⟨u8 0, by decide, fun x hx => lt_of_lt_of_le (by decide) hx.1⟩,
  u8 1, by decide, by decide⟩)
/-- the entry `0..=2` lies below the cut, `6..=8` overlaps it but does not start below it: nothing is cut -/
example := C43_cut_noop zops (q := iv 5 7) (by decide) ⟨(iv 0 2, 1), by decide, u8 0, by decide, fun x hx => lt_of_lt_of_le (by decide) hx.1⟩
  (fun e he ⟨p, hp, hpx⟩ => by
    have h1 : p < u8 5 := hpx _ ⟨by decide, by decide⟩
    have h2 : start e.1 < u8 5 := lt_of_le_of_lt hp.1 h1
    have : ∀ e ∈ (ZosditMap.after zops).iter, start e.1 < u8 5 → stop e.1 < u8 5 := by decide
    rintro ⟨x, hx, hx'⟩
    exact absurd (le_trans hx'.1 hx.2) (not_le.2 (this e he h2)))
example := (C45_first_offender (k := iv 3 6) (v := 9) (post := [(iv 2 1, 0)]) zshuffled_valid zshuffled_zero (fun _ => 0)).1 (by decide)
  ⟨(iv 4 12, 1), by decide, fun h => by rw [zeroOverlap_iff (by decide) (by decide)] at h; revert h; decide⟩
example := (C45_from_slice_first_offender (k := iv 6 3) (v := 9) (post := [(iv 2 2, 0)]) zshuffled_valid zshuffled_zero (fun _ => 0)).2 (by decide)

/-! ## C46 - C49 -/
example := C46_set_round_trip (E := String) sops s rfl
example := C47_set_partial (input := [.ok (iv 10 12), .error "unreadable", .ok (iv 0 4)]) (by
  intro k h; simp at h; rcases h with rfl | rfl <;> decide)
example := C48_round_trip_partial (E := String) (zops.take 5) (fun _ => 0) zops_nr zops_nc
example := C49_deserialize_partial (E := String) (l := [(iv 100 255, {1}), (iv 0 49, ({2, 3} : Finset Nat)), (iv 50 99, ∅)]) (by decide) (by decide)
  (fun p => by
    rcases le_or_gt p (u8 49) with h | h
    · exact ⟨(iv 0 49, {2, 3}), by simp, LawfulPoint.min_le p, h⟩
    rcases le_or_gt p (u8 99) with h' | h'
    · exact ⟨(iv 50 99, ∅), by simp, by show (50 : Int) ≤ p.val; have : (49 : Int) < p.val := h; omega, h'⟩
    · exact ⟨(iv 100 255, {1}), by simp, by show (100 : Int) ≤ p.val; have : (99 : Int) < p.val := h'; omega, LawfulPoint.le_max p⟩)

/-! ## C50 -/
example := C50_zosdit (K := Interval U8) (V := Nat) zops (.inclusiveGt (u8 3)) (.exclusiveGt (u8 3)) (.inclusiveLt (u8 9)) (leaf (ZosditMap.after zops).inner)
  (leaf_toList _)

/-! ## C52 - C57, C60 -/
example := (C52_set_intervals_are_maximal_runs csops (by simp [csops, SetOp.Coalescing]) (iv 6 12)).2 ⟨iv 6 12, by decide, rfl, rfl⟩
example := C54_cut_idempotent wf (q := iv 4 17) (q' := iv 5 11) rfl (by decide) (fun p hp => ⟨le_trans (by decide) hp.1, le_trans hp.2 (by decide)⟩)
example := C55_cuts_commute wf (q₁ := iv 4 12) (q₂ := iv 11 18) rfl rfl rfl rfl
example := C56_disjoint_overwrites_commute wf (k₁ := iv 4 11) (k₂ := iv 12 18) (v₁ := 1) (v₂ := 2) (by decide) rfl rfl rfl rfl
example := C57_remove_undoes_insert wf (k := iv 5 9) (v := 4) rfl
example := C57_reinsert_undoes_remove wf (q := iv 4 17) rfl (l := [(iv 13 15, 9), (iv 3 4, 7), (iv 16 20, 8), (iv 10 12, 8)]) (by decide)
example := C60_complement s_ascending

/-! ## C65, C67, C68 -/
example := C65_cut_exact zops (q := iv 5 7) (by decide)
example := C67_remove_undoes_insert zops (k := iv 9 20) 5 0 (p := u8 10) (x := u8 20) rfl (by decide) (by decide) (by decide)
/-- the two values at `4..=4` keep their order -/
example := C68_order_independent (l := zshuffled) (l' := [(iv 4 4, 2), (iv 0 4, 3), (iv 4 4, 4), (iv 4 12, 1)]) zshuffled_valid (by decide) zshuffled_zero
  (List.Pairwise.imp zo (by decide)) (fun q _ => by
    have key : ∀ (a : Interval U8) (_ : Valid a), SameInterval a q ↔ a = q := fun a ha =>
      ⟨fun h => interval_eq_of_mem_iff ha h, fun h => h ▸ fun _ => Iff.rfl⟩
    have e : ∀ l : List (Interval U8 × Nat), (∀ e ∈ l, Valid e.1) → l.filter (fun e => @decide _ (Classical.propDecidable (SameInterval e.1 q))) = l.filter (fun e => decide (e.1 = q)) :=
      fun l hl => List.filter_congr fun e he => by simp only [key e.1 (hl e he)]
    rw [e _ zshuffled_valid, e _ (by decide)]
    simp only [zshuffled, List.filter_cons, List.filter_nil]
    by_cases h1 : iv 4 12 = q
    · subst h1; decide
    by_cases h2 : iv 4 4 = q
    · subst h2; decide
    by_cases h3 : iv 0 4 = q
    · subst h3; decide
    simp [h1, h2, h3]) (fun _ => 0) (fun _ => 0)

/-! ## C70 -/
example := C70_from_adds_a_point ⟨r8 3, r8 7⟩ ⟨r8 5, by decide⟩ (r8 8)

/-! ## C72, C73 -/
example := C72_panics_iff (Q := Interval U8) gc_fine (h' := go) ⟨trivial, by decide⟩ {3} 3 (iv 9 5) (iv 7 8) (u8 4)
example := C72_gaps_no_identifier gc_fine (q := iv 3 12) (by decide)
example := C73_append_distributes (a := (GqHist.insert .new {1} (iv 0 9) : GqHist U8 (Interval U8) Nat)) (b := .insert .new {2, 3} (iv 5 19))
  (by simp [GqHist.Bad]; decide) (by simp [GqHist.Bad]; decide) {1, 2} (q := iv 4 12) (by decide) (k := iv 200 255) (by decide)
example := C73_cut_undoes_insert (h := GqHist.insert (.new : GqHist U8 (Interval U8) Nat) {1} (iv 5 9)) (g := gc0) (by simp [GqHist.Bad]; decide) (by decide) {2}
  (k := iv 7 20) (q := iv 7 20) (by decide) (fun _ => Iff.rfl) (fun p _ s hs d hd => by
    rw [C30_identifiers_at_point (h := GqHist.insert (.new : GqHist U8 (Interval U8) Nat) {1} (iv 5 9)) (by decide) p] at hs
    cases hs
    simp only [Finset.mem_singleton] at hd
    subst hd
    simp only [GqHist.idsAt]
    split_ifs <;> simp)

/-! ## C74 -/
example := (C74_order_irrelevant (E := String) (l := shuffled) (l' := shuffled.reverse) (List.reverse_perm _).symm
  ⟨[(iv 0 4, 2), (iv 5 9, 3), (iv 10 12, 1)]⟩).1 (by decide)

/-! ## C76 -/
example := C76_translate_undo_wrapping (iv 250 253) (u8 0) (u8 5) (u8 251) rfl (by decide)

/-! ## C78, C80 -/
example := (C78_set_undisturbed Demo.s_ascending (.cut (iv 11 251))).1 _ _ rfl
example := C80_only_cut (ZosditMap.after zops) (.insertStrictBack (iv 9 20) 5 0) rfl (some 0) rfl

/-! ## C85, C86 -/
example := C86_cut zdis ndis_wf (by decide) (q := iv 3 12) (by decide) (fun h => by
  have e : (ZosditMap.after zdis).iter = ndis.iter := by decide
  exact absurd ((C65_cut_exact zdis (q := iv 3 12) (by decide)).1 (e ▸ h)) (by decide))
/-- the points with some identifier as a set -/
def s5 : NoditSet (Interval U8) := ⟨⟨[(iv 5 9, ())]⟩⟩
theorem s5_ascending : Ascending s5.iter := by rw [ascending_iff]; unfold ChainK; decide
example : gc0.gapsNoIdentifier (iv 3 12) = s5.gapsUntrimmed (iv 3 12) :=
  C85_gaps_no_identifier (h := GqHist.insert (.new : GqHist U8 (Interval U8) Nat) {1} (iv 5 9)) (g := gc0) (by decide) s5_ascending (fun p => by
    rw [C30_identifiers_at_point (h := GqHist.insert (.new : GqHist U8 (Interval U8) Nat) {1} (iv 5 9)) (by decide) p]
    obtain ⟨b, h1, h2⟩ := (C22_set_queries s5_ascending (iv 0 0) (by decide) p).2.2.2.1
    rw [h1]
    have e : (∃ k ∈ s5.iter, Mem p k) ↔ Mem p (iv 5 9) := by simp [s5, NoditSet.iter, NoditMap.iter]
    rw [e] at h2
    simp only [Except.ok.injEq, h2, GqHist.idsAt, ne_eq]
    split_ifs with h <;> simp [h]) (iv 3 12)

/-! ## C87 - C91 -/
example := C87_nodit_set_history labelled_faithful [.insertStrict ⟨u8 0, u8 5, 1⟩, .insertMergeTouching ⟨u8 6, u8 9, 2⟩, .cut (iv 3 4), .iter] (Or.inl (by simp))
example := C88_nodit_map (ψ := fun v : Nat => v + 1) (ops := [.insertStrict (iv 0 5) 3, .cut (iv 3 4)]) (ops' := [.insertStrict (iv 0 5) 4, .cut (iv 3 4)])
  (Or.inl (by simp)) (.cons (.insertStrict _ _) (.cons (.cut _) .nil))
example := C89_nodit_map_congruence (K := Labelled) (V := Mod10) (m := ⟨[(⟨u8 0, u8 5, 1⟩, ⟨3⟩)]⟩) (m' := ⟨[(⟨u8 0, u8 5, 2⟩, ⟨13⟩)]⟩) (by decide)
  (.cons (.insertStrict (k := (⟨u8 7, u8 8, 1⟩ : Labelled)) (k' := ⟨u8 7, u8 8, 2⟩) (v := (⟨4⟩ : Mod10)) (v' := ⟨14⟩) (by decide) (by decide)) .nil)
example := C89_nodit_set_history (s := ⟨⟨[(⟨u8 0, u8 5, 1⟩, ())]⟩⟩) (s' := ⟨⟨[(⟨u8 0, u8 5, 2⟩, ())]⟩⟩) (by decide)
  (.cons (.insertStrict (k := (⟨u8 7, u8 8, 1⟩ : Labelled)) (k' := ⟨u8 7, u8 8, 2⟩) (by decide)) .nil)
example := (C89_gqdit_eq_iff_lookups gh_eval gh2_eval).1 (by decide)
example := C90_round_trip (E := String) (iv 3 9) [("end", u8 9), ("start", u8 3)] (by decide)
example := C91_nodit_set_shapes setCalls shapes (fun _ _ => comb) shapes_lawful (fun _ _ => comb_toList)

/-! ## C93 -/
/-- the same calls, client after client -/
def setSerial : List (Bool × SetCall U8 (Interval U8)) :=
  (own true setSched).map (fun o => (true, o)) ++ (own false setSched).map (fun o => (false, o))
example := C93_set_all_schedules_agree Demo.s_ascending region region_valid regions_apart
  (by rw [Demo.s_iter]; intro k hk; obtain ⟨e, he, rfl⟩ := List.mem_map.1 hk; exact entries_apart e he) setSched setSerial setSched_within
  (fun x hx => setSched_within x (by simp [setSerial, own, setSched] at hx ⊢; tauto)) (fun c => by cases c <;> rfl)

/-! ## C95 -/
example := C95_lookup (I := U8) (fun x y h hn => absurd (LawfulPoint.up_none x hn y) (not_le.2 h)) (fun x y h hn => absurd (LawfulPoint.down_none y hn x) (not_le.2 h)) wf (u8 3)

/-! ## C98 -/
/-- a `clone()` that numbers the copies -/
example := C98_nodit_cut (σ := Nat) wf (iv 11 251) (by decide) (fun v n => (v + n, n + 1)) 0
example := C98_nodit_insert_overwrite (σ := Nat) wf (iv 11 251) (by decide) 5 (fun v n => (v + n, n + 1)) 0
example := C98_nodit_faithful_clone (σ := Nat) (fun v n => (v, n + 1)) (fun _ _ => rfl) ops 0
example := C98_zosdit_cut (σ := Nat) zops (iv 1 7) (by decide) (fun v n => (v + n, n + 1)) 0

/-- every entry that overlaps the cut lies inside it: nothing is cloned -/
example := C98_nodit_cut_whole_entries (σ := Nat) wf (iv 9 15) (by decide) (fun v n => (v + n, n + 1)) 0 (fun e he ho p hp => by
  have : ∀ e ∈ m.iter, Overlap e.1 (iv 9 15) → u8 9 ≤ start e.1 ∧ stop e.1 ≤ u8 15 := by decide
  exact ⟨le_trans (this e he ho).1 hp.1, le_trans hp.2 (this e he ho).2⟩)
/-- copies are equal to their originals modulo 10; the calls have no closures -/
example := C98_nodit_history (σ := Nat) (fun a b : Nat => a % 10 = b % 10) (fun v n => (v + 10 * n, n + 1)) (fun a b s h => by simp; omega) ops
  (by simp [ops, Op.Respects]) (Or.inl (by simp [ops])) 0
example := C98_zosdit_history (σ := Nat) (fun a b : Nat => a % 10 = b % 10) (fun v n => (v + 10 * n, n + 1)) (fun a b s h => by simp; omega) zops
  (by simp [zops, ZOp.Respects]) 0

/-! ## C95 -/
example := C95_uncovered_point wf (p := u8 9) (by decide)

/-! ## C99 -/
example := C99_gqdit_programs (g0 := (⟨⟨[(iv 0 255, ∅)]⟩⟩ : Gqdit (Interval U8) Nat)) rfl gprog

/-! ## C100 -/
example := C100_union s_ascending [iv 2 2, iv 100 120, iv 16 17] (by decide)
example := C100_difference s_ascending [iv 2 2, iv 100 120, iv 10 17] (by decide)
example := C100_intersection s_ascending Demo.s_ascending
example := C100_intersection_from_pieces s_ascending Demo.s_ascending
example := C100_union_commutes csops (csops.drop 2) (by simp [csops, SetOp.Coalescing]) (by simp [csops, SetOp.Coalescing]) rfl rfl
example := C100_union_canonical csops (csops.drop 2) (by simp [csops, SetOp.Coalescing]) (by simp [csops, SetOp.Coalescing]) (ks := [iv 0 2, iv 3 5, iv 40 50])
  (ks' := [iv 0 12, iv 48 50, iv 40 47]) (by decide) (by decide) (by
    have e1 : (NoditSet.new.run csops).iter = [iv 0 3, iv 6 12] := by decide
    have e2 : (NoditSet.new.run (csops.drop 2)).iter = [] := by decide
    ext p
    simp only [points, e1, e2, Set.mem_union, Set.mem_ofPred_eq, List.mem_cons, List.not_mem_nil, or_false, exists_eq_or_imp, exists_eq_left, false_and,
      exists_false, false_or]
    have h0 : Mem p (iv 0 3) ↔ (0 : Int) ≤ p.val ∧ p.val ≤ 3 := Iff.rfl
    have h1 : Mem p (iv 6 12) ↔ (6 : Int) ≤ p.val ∧ p.val ≤ 12 := Iff.rfl
    have h2 : Mem p (iv 0 2) ↔ (0 : Int) ≤ p.val ∧ p.val ≤ 2 := Iff.rfl
    have h3 : Mem p (iv 3 5) ↔ (3 : Int) ≤ p.val ∧ p.val ≤ 5 := Iff.rfl
    have h4 : Mem p (iv 40 50) ↔ (40 : Int) ≤ p.val ∧ p.val ≤ 50 := Iff.rfl
    have h5 : Mem p (iv 0 12) ↔ (0 : Int) ≤ p.val ∧ p.val ≤ 12 := Iff.rfl
    have h6 : Mem p (iv 48 50) ↔ (48 : Int) ≤ p.val ∧ p.val ≤ 50 := Iff.rfl
    have h7 : Mem p (iv 40 47) ↔ (40 : Int) ≤ p.val ∧ p.val ≤ 47 := Iff.rfl
    rw [h0, h1, h2, h3, h4, h5, h6, h7]
    omega)
example := C100_overlay wf shuffled shuffled_valid
example := C100_overlay_map wf ndis_wf
example := C100_erase wf [iv 2 2, iv 100 120, iv 10 17] (by decide)

end Nodit.Instances
