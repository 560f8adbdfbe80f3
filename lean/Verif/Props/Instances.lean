import Verif.Props.Algebra
import Verif.Props.AnyPoints
import Verif.Props.Bounds
import Verif.Props.Canonical
import Verif.Props.CrashGqProps
import Verif.Props.CrashProps
import Verif.Props.Cross
import Verif.Props.EqualityProps
import Verif.Props.FromIter
import Verif.Props.GqditClients
import Verif.Props.GqditLaws
import Verif.Props.GqditStore
import Verif.Props.IntervalLaws
import Verif.Props.IterProps
import Verif.Props.Locality
import Verif.Props.Parametric
import Verif.Props.Pointwise
import Verif.Props.SerdeProps
import Verif.Props.SetProps
import Verif.Props.TreeMapProps
import Verif.Props.TreeProps
import Verif.Props.ZosditNodit
import Verif.Props.ZosditProps
/-!
# Concrete cases meeting the hypotheses of theorems that have no example next to them

Each `example` applies the theorem it names to concrete maps and arguments, which discharges all of its hypotheses. No claim of its own.
-/
set_option linter.unusedSectionVars false
namespace Nodit.Instances
open Spec PointType Demo

section
variable {I A B : Type} [PointType I] [IntervalType I A] [IntervalType I B]
instance (p : I) (a : A) : Decidable (Mem p a) := inferInstanceAs (Decidable (_ ∧ _))
instance (a : A) : Decidable (Valid a) := decidable_of_iff _ valid_iff.symm
instance (a : A) (b : B) : Decidable (Overlap a b) :=
  decidable_of_iff (start a ≤ stop a ∧ start b ≤ stop b ∧ start a ≤ stop b ∧ start b ≤ stop a)
    ⟨fun h => (overlap_iff h.1 h.2.1).2 h.2.2, fun h => by
      have ha : start a ≤ stop a := by obtain ⟨p, h1, h2⟩ := h; exact h1.1.trans h1.2
      have hb : start b ≤ stop b := by obtain ⟨p, h1, h2⟩ := h; exact h2.1.trans h2.2
      exact ⟨ha, hb, (overlap_iff ha hb).1 h⟩⟩
theorem zo {a : A} {b : B} (h : start a ≤ stop a ∧ start b ≤ stop b ∧ (stop a ≤ start b ∨ stop b ≤ start a)) : ZeroOverlap a b :=
  (zeroOverlap_iff h.1 h.2.1).2 h.2.2
end

theorem wf : WF m.iter := C01_invariant ops
/-- entries in no particular order -/
def shuffled : List (Interval U8 × Nat) := [(iv 10 12, 1), (iv 0 4, 2), (iv 5 9, 3)]
theorem shuffled_valid : ∀ e ∈ shuffled, Valid e.1 := by decide
theorem shuffled_disjoint : shuffled.Pairwise (fun a b => ¬ Overlap a.1 b.1) := by decide
/-- entries in no particular order, two of them at the same point -/
def zshuffled : List (Interval U8 × Nat) := [(iv 4 12, 1), (iv 4 4, 2), (iv 0 4, 3), (iv 4 4, 4)]
theorem zshuffled_valid : ∀ e ∈ zshuffled, Valid e.1 := by decide
theorem zshuffled_zero : zshuffled.Pairwise (fun a b => ZeroOverlap a.1 b.1) := by
  have : zshuffled.Pairwise (fun a b => start a.1 ≤ stop a.1 ∧ start b.1 ≤ stop b.1 ∧ (stop a.1 ≤ start b.1 ∨ stop b.1 ≤ start a.1)) := by
    decide
  exact this.imp zo

/-! ## C17 -/
example := C17_from_iter_strict_disjoint shuffled_valid shuffled_disjoint
example : NoditMap.fromIterStrict (shuffled ++ (iv 3 6, 9) :: [(iv 2 1, 0)]) = .ok (.error ⟨9⟩) :=
  (C17_from_iter_strict_first_offender (post := [(iv 2 1, 0)]) shuffled_valid shuffled_disjoint).1 (by decide) (by decide)
example : NoditMap.fromIterStrict (shuffled ++ (iv 6 3, 9) :: [(iv 2 2, 0)]) = .error .invalidInterval :=
  (C17_from_iter_strict_first_offender (post := [(iv 2 2, 0)]) shuffled_valid shuffled_disjoint).2 (by decide)

/-! ## C20 -/
example := C20_reference_history_unique (C20_refines_set_of_entries (K := Interval U8) (V := Nat) ops)
/-- `cut` with an invalid interval, in the reference machine -/
example := C20_reference_machine_deterministic (S := m.entrySet) (op := .cut (iv 9 5)) (Or.inl ⟨by simp [Op.Bad]; decide, rfl, rfl⟩)
  (Or.inl ⟨by simp [Op.Bad]; decide, rfl, rfl⟩)

/-! ## C22 -/
/-- the set after `Demo.sops`: `0..=1, 4..=15, 20..=255` -/
def s : NoditSet (Interval U8) := NoditSet.new.run sops
theorem s_ascending : Ascending s.iter := by rw [ascending_iff]; unfold ChainK; decide
example := C22_set_queries s_ascending (iv 1 17) (by decide) (u8 3)
example := C22_set_updates s_ascending (iv 2 3) (by decide) (iv 5 30) (by decide)
example := C22_set_merged_keys s_ascending (iv 2 3) (by decide)
example := C22_set_len_first_last s_ascending

/-! ## C39, C40, C45 -/
example : (ZosditMap.after zops).insertStrictBack (iv 7 9) 8 0 = .ok (ZosditMap.after zops, .error ⟨8⟩) :=
  C39_refused zops (by decide) 8 0 ⟨(iv 6 8, 3), by decide, fun h => by
    rw [zeroOverlap_iff (by decide) (by decide)] at h; revert h; decide⟩
example := C40_found zops (u8 7) (v := 3) (by decide)
example := C45_from_iter_strict_back zshuffled_valid zshuffled_zero (fun _ => 0)

/-! ## C47, C49 -/
example := C47_map_accepts (E := String) shuffled_valid shuffled_disjoint
example := (C47_map_first_offender (E := String) (k := iv 3 6) (v := 9) (post := [.error "unreadable"]) shuffled_valid shuffled_disjoint).2.1
  (by decide) (by decide)
example := (C47_map_first_offender (E := String) (k := iv 6 3) (v := 9) (post := [.error "unreadable"]) shuffled_valid shuffled_disjoint).2.2
  (by decide)
example := C47_map_partial (input := [.ok (iv 10 12, 1), .error "unreadable", .ok (iv 0 4, 2)]) (by
  intro k v h; simp at h; rcases h with ⟨rfl, -⟩ | ⟨rfl, -⟩ <;> decide)
example := C49_round_trip (E := String) gh_eval
example := C47_zosdit_accepts (E := String) zshuffled_valid zshuffled_zero (fun _ => 0)
example := (C47_zosdit_first_offender (E := String) (k := iv 3 6) (v := 9) (post := [.error "unreadable"]) zshuffled_valid zshuffled_zero
  (fun _ => 0)).2.1 (by decide) ⟨(iv 4 12, 1), by decide, fun h => by
    rw [zeroOverlap_iff (by decide) (by decide)] at h; revert h; decide⟩
example := C47_zosdit_partial (input := [.ok (iv 4 12, 1), .error "unreadable", .ok (iv 0 4, 2)]) (by
  intro k v h; simp at h; rcases h with ⟨rfl, -⟩ | ⟨rfl, -⟩ <;> decide) (fun _ => 0)

/-! ## C50 -/
example := C50_any_tree (.touchingStart (u8 16)) tree (tree_content ▸ wf)
example := C50_any_tree_range (.overlapping (u8 4)) (.overlapping (u8 17)) tree (tree_content ▸ wf)
example := C50_same_content (.touchingEnd (u8 13)) (.overlapping (u8 4)) (.overlapping (u8 17)) tree (leaf m.iter) (tree_content ▸ wf)
  (tree_content.trans (leaf_toList _).symm)

/-! ## C53 -/
example := (C53_map_entries_are_maximal_runs cops (by simp [cops, Op.Coalescing]) 7 (iv 4 20)).2
  ⟨iv 4 20, by decide, rfl, rfl⟩

/-! ## C61, with two types of query intervals -/
example := C61_query_points_only wf (q := iv 4 17) (q' := (⟨u8 4, u8 17, 3⟩ : Labelled)) (fun _ => Iff.rfl) (fun _ v => v + 1)
/-- and with two invalid intervals -/
example := C61_query_points_only wf (q := iv 17 4) (q' := iv 9 8) (fun p => by
  have h1 : ¬ Valid (iv 17 4) := by decide
  have h2 : ¬ Valid (iv 9 8) := by decide
  exact ⟨fun h => absurd ⟨p, h⟩ h1, fun h => absurd ⟨p, h⟩ h2⟩) (fun _ v => v + 1)

/-! ## C71, C73 -/
example := C73_append_laws (a := (GqHist.insert .new {1} (iv 0 9) : GqHist U8 (Interval U8) Nat)) (b := .insert .new {2, 3} (iv 5 19))
  (c := .insert .new {1} (iv 9 9)) (by simp [GqHist.Bad]; decide) (by simp [GqHist.Bad]; decide) (by simp [GqHist.Bad]; decide)

/-- two programs that lead to the same contents -/
example := C71_determined (h := (.insert (.insert .new {1} (iv 0 4)) {2} (iv 3 9) : GqProg U8 (Interval U8) Nat))
  (h' := .insert (.insert .new {2} (iv 3 9)) {1} (iv 0 4)) ⟨⟨trivial, by decide⟩, by decide⟩ ⟨⟨trivial, by decide⟩, by decide⟩ (fun p => by
    simp only [GqProg.contents]
    split_ifs <;> simp [Finset.pair_comm])

/-! ## C75, C76 -/
example : InclusiveInterval.intersection (iv 0 9) (iv 5 19) = some (iv 5 9) := by decide
example := (C75_intersection_greatest (iv 0 9) (iv 5 19) (iv 6 7) (by decide)).1 (by decide)
example := C76_translate_twice (k := iv 10 20) (r := iv 15 25) (r' := iv 22 32) (d := u8 5) (d' := u8 7) (dd := u8 12)
  (by decide) (by decide) (by decide)
example := C76_translate_rigid (k := iv 10 20) (k' := iv 15 17) (r := iv 15 25) (r' := iv 20 22) (d := u8 5) (by decide) (by decide)
example := C76_width_counts_points (k := iv 10 20) (w := u8 10) (by decide) (by decide)

/-! ## C78, C79 -/
example := (C78_undisturbed wf (.cut (iv 11 251))).1 _ _ rfl
example := C78_crash_leaves wf (.cut (iv 11 251)) (some 4) rfl
example := C78_nothing_invented wf (.cut (iv 11 251)) (some 4) rfl

theorem gc_fine : gc.Fine := ⟨trivial, by decide⟩
theorem gc_eval : Gqdit.evalProg gc = .ok gc0 := by decide
/-- a `Gqdit` to append, and what it is -/
def go : GqProg U8 (Interval U8) Nat := .insert .new {2} (iv 7 20)
def go0 : Gqdit (Interval U8) Nat := ⟨⟨[(iv 0 6, ∅), (iv 7 20, {2}), (iv 21 255, ∅)]⟩⟩
example := (C79_undisturbed gc_fine gc_eval (.insert {2} (iv 7 20))).1 _ rfl
example := (C79_undisturbed gc_fine gc_eval (.cutAllIdentifiers (iv 20 7))).2 _ rfl
example := C79_crash_leaves gc_fine gc_eval (.insert {2} (iv 7 20)) (some 14) rfl
example := C79_history gc_fine gc_eval [(.insert {2} (iv 7 20), some 14), (.insert {3} (iv 8 8), none)]
example := (C79_append gc_fine gc_eval (o := go) (g₂ := go0) ⟨trivial, by decide⟩ (by decide) (some 12))

/-! ## C81 -/
noncomputable instance : Fintype U8 :=
  Fintype.ofInjective (fun x : U8 => (⟨x.val.toNat, by have := x.ge; have := x.le; omega⟩ : Fin 256)) (fun a b h => by
    have h := congrArg Fin.val h
    have := a.ge; have := b.ge
    rcases a with ⟨a, _, _⟩; rcases b with ⟨b, _, _⟩
    simp only at h; congr 1; omega)
example := C81_finite_points wf
example : ∃ s', s.step (.insertOverwrite (iv 30 40)) = .ok s' ∧ s'.len ≤ s.len + 2 := ⟨_, rfl, C81_set_growth s_ascending (op := .insertOverwrite (iv 30 40)) rfl⟩

/-! ## C83, C84 -/
example := C83_set_overlapping s_ascending (q := iv 1 17) (by decide)
example := C83_zosdit_overlapping zops (q := iv 2 30) (by decide)
example := C83_map_overlapping_mut wf (q := iv 4 17) (by decide) [(.front, fun _ v => 2 * v), (.back, fun _ _ => 0)]
example := C84_gaps_untrimmed_calls wf (q := iv 2 22) (by decide)
example := C84_gaps_trimmed_calls wf (q := iv 2 22) (by decide)
example := C84_one_item_suffices wf (iv 2 22)

/-- three calls on the iterator over `4..=17`, from both ends -/
example : ∃ st tr st', m.overlappingStart (iv 4 17) = .ok st ∧ tr.map Prod.fst = [.front, .back, .front] ∧ It.Calls It.range st tr st' ∧
    ∃ out rest, out = It.returned .front tr ++ rest ++ (It.returned .back tr).reverse := by
  obtain ⟨st, out, h1, h2, -⟩ := C83_map_overlapping wf (q := iv 4 17) (by decide)
  obtain ⟨tr, st', h3, h4⟩ := (h2 [.front, .back, .front]).1
  obtain ⟨rest, h5, -⟩ := C83_each_element_once h2 h4
  exact ⟨st, tr, st', h1, h3, h4, out, rest, h5⟩

/-! ## C85 -/
example := C85_identifier_is_a_set gh_eval 1

/-! ## C86 -/
theorem ndis_wf : WF ndis.iter := by rw [wf_iff_chain]; unfold Chain; decide
example := C86_queries zdis ndis_wf (by decide) (iv 3 12) (u8 4)
example := C86_insert zdis ndis_wf (by decide) (k := iv 5 9) (v := 7) rfl 0

/-! ## C87, C89 -/
theorem labelled_faithful : FaithfulOnValid U8 Labelled := fun _ _ => ⟨rfl, rfl⟩
/-- calls with labelled intervals -/
def lops : List (Op U8 Labelled Nat) := [.insertStrict ⟨u8 0, u8 5, 1⟩ 3, .insertMergeTouching ⟨u8 6, u8 9, 2⟩ 4, .cut (iv 3 4)]
example := C87_nodit_map labelled_faithful (ops := lops)
  (ops' := [.insertStrict (iv 0 5) 3, .insertMergeTouching (iv 6 9) 4, .cut (iv 3 4)])
  (Or.inr fun _ h => h) (.cons (.insertStrict _ _) (.cons (.insertMergeTouching _ _) (.cons (.cut _) .nil)))
example := C87_nodit_set labelled_faithful [.insertStrict ⟨u8 0, u8 5, 1⟩, .cut (iv 3 4)] (iv 2 9) (u8 3)
example := C87_zosdit_map (V := Nat) labelled_faithful [.insertStrictBack ⟨u8 0, u8 5, 1⟩ 7 0, .insertStrictBack ⟨u8 5, u8 5, 2⟩ 8 0] (iv 2 9) (u8 5)
example := (C87_gqdit (Q := Interval U8) labelled_faithful (GqHist.insert .new {1} ⟨u8 0, u8 5, 1⟩ : GqHist U8 Labelled Nat)).2 _ rfl
example := C89_zosdit_map_eq_iff (zops.take 6) (zops.take 3) (by decide) (by decide)
example := C89_zosdit_map_eq_iff_iter (zops.take 5) (zops.take 3) (by decide) (by decide)

example := C89_nodit_set_congruence (s := ⟨⟨[(⟨u8 0, u8 5, 1⟩, ())]⟩⟩) (s' := ⟨⟨[(⟨u8 0, u8 5, 2⟩, ())]⟩⟩) (by decide)
  (.cons (.insertStrict (k := (⟨u8 7, u8 8, 1⟩ : Labelled)) (k' := ⟨u8 7, u8 8, 2⟩) (by decide)) .nil)
example := C89_zosdit_map_congruence (K := Labelled) (V := Mod10) (m := ⟨1, [(⟨u8 0, u8 5, 1⟩, [⟨3⟩])]⟩)
  (m' := ⟨1, [(⟨u8 0, u8 5, 2⟩, [⟨13⟩])]⟩) (by decide) (ops := [.insertStrictBack ⟨u8 5, u8 8, 1⟩ ⟨4⟩ 0])
  (ops' := [.insertStrictBack ⟨u8 5, u8 8, 2⟩ ⟨14⟩ 0]) (.cons (.insertStrictBack _ (by decide) (by decide)) .nil)
example := C89_gqdit_congruence (g := (⟨⟨[(⟨u8 0, u8 255, 1⟩, ({3} : Finset Nat))]⟩⟩ : Gqdit Labelled Nat)) (g' := ⟨⟨[(⟨u8 0, u8 255, 2⟩, {3})]⟩⟩)
  (o := ⟨⟨[(⟨u8 0, u8 4, 1⟩, {4})]⟩⟩) (o' := ⟨⟨[(⟨u8 0, u8 4, 5⟩, {4})]⟩⟩) (by decide) (by decide)

/-! ## C91 -/
example := C91_nodit_map_shapes ops shapes (fun _ _ => comb) shapes_lawful (fun _ _ => comb_toList)
example := C91_gqdit gh (fun _ _ => shapes) (fun _ _ => shapes_lawful)
example := C91_zosdit_map_no_cut (zops.take 8) (by decide) shapes shapes_lawful

/-! ## C92 -/
example := C92_uncovered_point_stays wf [.insertMergeTouching (iv 5 8) 1, .insertOverwrite (iv 11 40) 2, .cut (iv 0 100)] (p := u8 9) (by decide)
  (by simp [Op.Inserts]; decide)
example := C92_covered_point_stays wf [.insertMergeTouching (iv 5 8) 1, .insertOverwrite (iv 11 40) 2, .cut (iv 12 100)] (p := u8 11) (by decide)
  (by simp [Op.Uncovers]; decide)

/-! ## C97 -/
example : ∃ shared alone ids ids', Gqdit.eval (gh.calls (gqSched.map Prod.snd)) = .ok shared ∧ Gqdit.eval (gh.calls (own .c gqSched)) = .ok alone ∧
    shared.identifiersAtPoint (u8 117) = .ok ids ∧ alone.identifiersAtPoint (u8 117) = .ok ids' ∧ (9 ∈ ids ↔ 9 ∈ ids') :=
  have ⟨ids, ids', h1, h2, h3⟩ := C97_clients_do_not_observe_each_other (h := gh) territory territories_apart gqSched gqSched_within .c rfl rfl (u8 117)
  ⟨_, _, ids, ids', rfl, rfl, h1, h2, h3 9 ⟨by decide, rfl⟩⟩
example : ∃ free free' : List (Interval U8), ∀ p, Mem p (iv 3 60) → ((∃ k ∈ free, Mem p k) ↔ ∃ k ∈ free', Mem p k) :=
  have ⟨free, free', _, _, _, _, _, _, h⟩ := C97_gaps (h := gh) territory territories_apart gqSched gqSched_within .a rfl rfl 1 (q := iv 3 60) (by decide)
    (fun p hp x => lt_of_le_of_lt hp.2 (by decide))
  ⟨free, free', fun p hp => (h p hp).1⟩

/-- the same calls, client after client -/
def gqSerial : List (Client × GqOp U8 (Interval U8) Nat) :=
  (own .a gqSched).map (fun o => (.a, o)) ++ (own .b gqSched).map (fun o => (.b, o)) ++ (own .c gqSched).map (fun o => (.c, o))
example := C97_all_schedules_agree (h := gh) territory territories_apart gqSched gqSerial gqSched_within
  (fun x hx => gqSched_within x (by simp [gqSerial, own, gqSched] at hx ⊢; tauto)) (fun c => by cases c <;> rfl) rfl rfl

/-! ## C95 -/
section
attribute [local instance] Coarse.points
example := C95_covered_point (m := (NoditMap.new.run Coarse.ops).1) (p := 15) (e := (⟨10, 31⟩, 2)) (C95_any_points Coarse.ops (by simp [Coarse.ops, Op.NoNeighbours])).1 (by decide) (by decide)
end
end Nodit.Instances
