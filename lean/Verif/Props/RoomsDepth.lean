import Verif.Props.Rooms
import Verif.Props.Busiest
/-!
# C150: as many rooms as meetings at once

The client of C133, that gives the meetings rooms, and the client of C145, that counts how many intervals overlap at most, agree.
-/
set_option linter.unusedSectionVars false
namespace Nodit.Rooms
open Spec PointType Gqdit

variable {I K : Type} [PointType I] [IntervalType I K] [LawfulPoint I] [LawfulInterval I K]

theorem depth_zip {ks : List K} {rs : List Nat} (h : rs.length = ks.length) (p : I) [DecidablePred fun x : K × Nat => Mem p x.1] :
    Busiest.depth ks p = ((ks.zip rs).filter fun x => Mem p x.1).length := by
  classical
  have hmap : (ks.zip rs).map Prod.fst = ks := List.map_fst_zip (by omega)
  rw [Busiest.depth, List.countP_eq_length_filter]
  conv_lhs => rw [← hmap, List.filter_map, List.length_map]
  congr 1
  apply List.filter_congr
  intro x _
  simp [Function.comp]

/-- **C150**: for all meetings in the order of their starts, the number of different rooms used is what the other client finds as the greatest number
of meetings at one point (in whatever order it inserts the meetings). -/
theorem C150_rooms (ks ks' : List K) (hp : ks'.Perm ks) (hv : ∀ k ∈ ks, Valid (I := I) k) (hs : ks.Pairwise fun a b => start (I := I) a ≤ start b) :
    ∃ g rs, rooms (I := I) ks = .ok (g, rs) ∧ Busiest.busiest (I := I) ks' = .ok rs.toFinset.card := by
  classical
  obtain ⟨g, rs, h1, h2, h3, -⟩ := C133_rooms ks hv hs
  obtain ⟨n, e1, e2, e3⟩ := Busiest.C145_busiest (I := I) ks' (fun k hk => hv k (hp.subset hk))
  have hd : ∀ p : I, Busiest.depth ks' p = Busiest.depth ks p := fun p => hp.countP_eq _
  refine ⟨g, rs, h1, ?_⟩
  rw [e1]
  congr 1
  apply le_antisymm
  · rcases e3 with ⟨-, rfl⟩ | ⟨p, rfl⟩
    · exact Nat.zero_le _
    rw [hd, depth_zip h2 p, ← List.length_map Prod.snd]
    have hnd : (((ks.zip rs).filter fun x => Mem p x.1).map Prod.snd).Nodup := by
      rw [List.Nodup, List.pairwise_map]
      refine (h3.filter _).imp_of_mem fun {a b} ha hb hab => hab ⟨p, ?_, ?_⟩
      · simpa using (List.mem_filter.1 ha).2
      · simpa using (List.mem_filter.1 hb).2
    rw [← List.toFinset_card_of_nodup hnd]
    refine Finset.card_le_card fun t ht => ?_
    obtain ⟨y, hy, rfl⟩ := List.mem_map.1 (List.mem_toFinset.1 ht)
    exact List.mem_toFinset.2 (List.of_mem_zip (a := y.1) (b := y.2) (List.mem_filter.1 hy).1).2
  · refine (Finset.card_le_card (t := Finset.range n) fun r hr => ?_).trans (by simp)
    obtain ⟨-, p, l, l1, l2, l3⟩ := C133_numbers ks hv hs h1 (List.mem_toFinset.1 hr)
    have := e2 p
    rw [hd] at this
    have h4 := l1.countP_le (p := fun k => decide (Mem p k))
    rw [List.countP_eq_length.2 (by simpa using l3), l2] at h4
    have h5 : Busiest.depth ks p = ks.countP fun k => decide (Mem p k) := by
      simp only [Busiest.depth]
    rw [Finset.mem_range]
    omega

end Nodit.Rooms
