{
 "C27": {
  "note": "False as stated (see the counterexample theorem); the _partial theorem states exactly when it holds."
 },
 "C35": {
  "status": "partial",
  "note": "The claim about the receiver and about identifiers is proved (C35_append_partial); that `other` is usable afterwards is false of the code, proved for all histories by C35_appended_other_is_broken. With `other` set to a new Gqdit (Props/RepairsIO.lean, not code of the crate) the claim holds in full (Repair_gqdit_programs)."
 },
 "C39": {
  "status": "partial",
  "note": "False as stated: after a cut the map can hold several separate stores for the same point interval and the new value can land before another one (C39_not_at_the_back); _partial proves the rest (exact refusal, exactly one entry added in interval order; at the back when no cut happened or the interval has several points). The stored key is the one already present for an identical interval. With the local repairs of Props/Repairs.lean (not code of the crate) the documented behaviour holds for all histories (Repair_zosdit_documented)."
 },
 "C40": {
  "status": "partial",
  "note": "False as stated (C40_misses_end_points: nothing is found at the last point of an entry that is followed by a gap and another entry). Proved: whatever is returned is right (C40_found), exactly when None is returned (C40_none_iff), and the property under the condition excluding the bug. With the local repairs of Props/Repairs.lean (not code of the crate) the documented behaviour holds for all histories (Repair_zosdit_documented)."
 },
 "C42": {
  "status": "partial",
  "note": "False as stated (C42_len_wrong_after_remove): remove_last_value_at_point does not decrement the counter. Proved: len = entries + successful removals, for all histories; the property for histories without removals; is_empty is sound. With the local repairs of Props/Repairs.lean (not code of the crate) the documented behaviour holds for all histories (Repair_zosdit_documented)."
 },
 "C43": {
  "status": "partial",
  "note": "False as stated (C43_cut_misses). C43_cut_partial proves it under the exact condition, C43_cut_noop proves that otherwise nothing happens; together they cover all states and arguments. With the local repairs of Props/Repairs.lean (not code of the crate) the documented behaviour holds for all histories (Repair_zosdit_documented)."
 },
 "C47": {
  "status": "partial",
  "note": "False as stated: an invalid interval in the input panics (C47_panics; exactly when: the _first_offender theorems). The _partial theorems cover all inputs without invalid intervals, for NoditMap, NoditSet and ZosditMap. With a validity check on what was read (Props/RepairsIO.lean, not code of the crate) it holds for every input (Repair_deserialize_map, _set, _zosdit)."
 },
 "C48": {
  "status": "partial",
  "note": "False as stated (C48_not_equal): stale length after a removal, merged value stores after a cut. Proved for all histories: the entries come back in order (C48_round_trip_entries); the announced length is right exactly when no value has been removed (C48_announced_length_exact), and the map read back is equal exactly when moreover no two value stores are for the same interval (C48_round_trip_exact); in particular for histories without cut and removal. With the repairs of Props/Repairs.lean the announced length is right for all histories (Repair_zosdit_hint)."
 },
 "C49": {
  "status": "partial",
  "note": "Round trip proved. That a deserialised Gqdit covers every point is false (C49_not_covering, C49_empty_is_inert); C49_deserialize_partial proves it for covering input. With what was read inserted into a new Gqdit (Props/RepairsIO.lean, not code of the crate) it holds in full (Repair_gqdit_programs, Repair_gqdit_round_trip)."
 },
 "C94": {
  "status": "partial",
  "note": "False as stated with removals and cuts: a far-away entry of another client makes a point lookup miss (C94_far_entry_hides_lookup) or a cut do nothing (C94_far_entry_stops_cut), consequences of findings 2 and 3. Proved: clients that only insert do not observe each other (C94_inserting_clients_partial), and unaffected entries stay, for all calls. C94_documented_calls_partial: whatever the others do, a client whose own calls go as documented (in the schedule and alone) observes nothing of them, so findings 2-4 are the only way. With the repairs of Props/Repairs.lean the claim holds in full (Repair_zosdit_clients)."
 }
}