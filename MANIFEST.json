{
 "claims": [
  {
   "property": "C01",
   "status": "proved",
   "theorems": [
    "CB.C01_identifier_text_roundtrip",
    "CB.C01_identifier_text_parts"
   ],
   "note": "C01_identifier_text_parts: prefixes of the text select elections and types."
  },
  {
   "property": "C02",
   "status": "partial",
   "theorems": [
    "CB.C02_parse_partial",
    "CB.C02_parse_never_crashes_false"
   ],
   "note": "Crash-freedom is false of the code (bad type byte, 16-byte input): C02_parse_never_crashes_false. C02_parse_partial characterises success, error and panic exactly."
  },
  {
   "property": "C03",
   "status": "proved",
   "theorems": [
    "CB.C03_identifier_order"
   ],
   "note": "All parts proved for all identifiers: total order, byte order of the 32 bytes, text order, agreement of cmp and partial_cmp."
  },
  {
   "property": "C04",
   "status": "proved",
   "theorems": [
    "CB.C04_type_scan_exact"
   ],
   "note": "Proved for every sequence of stored transactions, including ids at the ends of the type's range."
  },
  {
   "property": "C05",
   "status": "proved",
   "theorems": [
    "CB.C05_range_exact"
   ],
   "note": "Exact, including when the scan panics (inverted bounds)."
  },
  {
   "property": "C06",
   "status": "proved",
   "theorems": [
    "CB.C06_memstore_is_map"
   ],
   "note": "Proved for every sequence of set calls; C38 carries it over to the Exonum ledger, C55 says what Sawtooth does."
  },
  {
   "property": "C07",
   "status": "proved",
   "theorems": [
    "CB.C07_step_ids_collision_free"
   ],
   "note": "One statement over all steps (Spec: Step, stepId), in both directions."
  },
  {
   "property": "C08",
   "status": "partial",
   "theorems": [
    "CB.C08_decryption_ids_partial",
    "CB.C08_decryption_ids_false"
   ],
   "note": "False for votes sharing the first 10 unique bytes: C08_decryption_ids_false. Holds for mix upstreams, and for votes with distinct 10-byte prefixes."
  },
  {
   "property": "C09",
   "status": "proved",
   "theorems": [
    "CB.C09_no_type_confusion"
   ],
   "note": "For every store filled with accepted transactions, in any order and with overwriting (Replay)."
  },
  {
   "property": "C10",
   "status": "proved",
   "theorems": [
    "CB.C10_accepted_means_signed"
   ],
   "note": "For every store and environment; also that the signature field of a decryption is irrelevant."
  },
  {
   "property": "C11",
   "status": "proved",
   "theorems": [
    "CB.C11_sign_then_verify"
   ],
   "note": "Under SignCorrect (Ed25519 signs correctly); generic in the transaction type."
  },
  {
   "property": "C12",
   "status": "partial",
   "theorems": [
    "CB.C12_election_acceptance_partial",
    "CB.C12_election_acceptance_false"
   ],
   "note": "The authenticator threshold is compared with the count modulo 256; C12_election_acceptance_false is a threshold of 1 with 256 authenticators being refused. The partial theorem is the exact acceptance rule below 256 authenticators."
  },
  {
   "property": "C13",
   "status": "proved",
   "theorems": [
    "CB.C13_trustee_steps_by_trustees"
   ],
   "note": "For every store; says both who is listed and who has signed."
  },
  {
   "property": "C14",
   "status": "proved",
   "theorems": [
    "CB.C14_shares_cover_trustees"
   ],
   "note": "With repeated trustee indexes in the election only the count and coverage hold; the exact set needs distinct indexes."
  },
  {
   "property": "C15",
   "status": "proved",
   "theorems": [
    "CB.C15_encryption_key_unanimous"
   ],
   "note": "Exact (iff) for stores that obey the storage contract (Lawful)."
  },
  {
   "property": "C16",
   "status": "partial",
   "theorems": [
    "CB.C16_elections_own_their_steps_false",
    "CB.C16_elections_own_their_steps_partial"
   ],
   "note": "False: a trustee, authority or voting end of one election can fill a slot of another election (ids are not checked for composition in keygen and voting end). The partial theorem covers the types whose id is checked."
  },
  {
   "property": "C17",
   "status": "proved",
   "theorems": [
    "CB.C17_no_votes_after_end"
   ],
   "note": "For every continuation by accepted transactions, even one that overwrites ids."
  },
  {
   "property": "C18",
   "status": "proved",
   "theorems": [
    "CB.C18_no_votes_before_key"
   ],
   "note": "For every store. The slot is looked up by id; C16 says what may fill it."
  },
  {
   "property": "C19",
   "status": "proved",
   "theorems": [
    "CB.C19_votes_stay_on_ballot"
   ],
   "note": "For every store."
  },
  {
   "property": "C20",
   "status": "partial",
   "theorems": [
    "CB.C20_authenticator_quorum_partial",
    "CB.C20_authenticator_quorum_false"
   ],
   "note": "False: authenticators_threshold is never enforced (a vote without authentication is accepted). The partial theorem: every carried authentication verifies under an authenticator of the election."
  },
  {
   "property": "C21",
   "status": "partial",
   "theorems": [
    "CB.C21_no_prefix_collisions_false",
    "CB.C21_no_prefix_collisions_partial"
   ],
   "note": "False: the collision range starts and ends at the same id. The partial theorem: no two stored votes share 16 bytes, and the one id that is looked up is refused."
  },
  {
   "property": "C22",
   "status": "partial",
   "theorems": [
    "CB.C22_one_vote_per_contest_partial",
    "CB.C22_one_vote_per_contest_false"
   ],
   "note": "False of the code: nothing rejects two encrypted votes for one contest. Partial: once a contest has been mixed, every stored vote had on average one entry (the first mix needs as many inputs as votes)."
  },
  {
   "property": "C23",
   "status": "proved",
   "theorems": [
    "CB.C23_first_mix_covers_votes"
   ],
   "note": "For stores that obey the storage contract (Lawful)."
  },
  {
   "property": "C24",
   "status": "proved",
   "theorems": [
    "CB.C24_mix_chain"
   ],
   "note": "By induction over append-only histories (Ledger)."
  },
  {
   "property": "C25",
   "status": "proved",
   "theorems": [
    "CB.C25_mixing_preserves_votes"
   ],
   "note": "Under ShuffleSound (verified shuffles permute plaintexts); by induction over append-only histories."
  },
  {
   "property": "C26",
   "status": "partial",
   "theorems": [
    "CB.C26_mix_after_end_false",
    "CB.C26_mix_after_end_partial"
   ],
   "note": "False of the code: MixTransaction::validate_tx never looks for a voting-end transaction. Partial: a mix after the end covers all votes there will ever be."
  },
  {
   "property": "C27",
   "status": "proved",
   "theorems": [
    "CB.C27_partial_only_after_end"
   ],
   "note": "For every store. The slot is looked up by id; C16 says what may fill it."
  },
  {
   "property": "C28",
   "status": "proved",
   "theorems": [
    "CB.C28_partial_is_proven"
   ],
   "note": "For every store."
  },
  {
   "property": "C29",
   "status": "partial",
   "theorems": [
    "CB.C29_only_fully_mixed_false",
    "CB.C29_only_fully_mixed_partial"
   ],
   "note": "False of the code: any mix of the election's contest can be decrypted, not only the last. Partial: with a mixnet the item is an in-range position of a stored mix."
  },
  {
   "property": "C30",
   "status": "partial",
   "theorems": [
    "CB.C30_decryption_is_threshold_decryption_partial",
    "CB.C30_decryption_of_own_item_false"
   ],
   "note": "Partial: proved for the items the ids point at; two items whose upstream ids agree in 10 bytes share partial-decryption ids, so partials of another item can be used (witness C30_..._false)."
  },
  {
   "property": "C31",
   "status": "partial",
   "theorems": [
    "CB.C31_distinct_quorum_partial",
    "CB.C31_distinct_quorum_false"
   ],
   "note": "False of the code: a trustee index may be listed twice and each occurrence counts. Partial: the distinct-quorum claim holds when threshold decryption itself needs a quorum of distinct indexes."
  },
  {
   "property": "C32",
   "status": "proved",
   "theorems": [
    "CB.C32_decryption_unique"
   ],
   "note": "For every store filled with accepted transactions; different trustee sets are C56, under ThresholdCorrect."
  },
  {
   "property": "C33",
   "status": "partial",
   "theorems": [
    "CB.C33_validation_never_crashes_false",
    "CB.C33_validation_never_crashes_partial"
   ],
   "note": "False of the code: a mix naming a non-mix transaction as its predecessor panics. Partial: the complete list of panic causes."
  },
  {
   "property": "C34",
   "status": "proved",
   "theorems": [
    "CB.C34_nodes_isolated",
    "CB.C34_submissions_isolated",
    "CB.C34_elections_isolated"
   ],
   "note": "The whole verdict (acceptance, error, panic) is a function of the elections referred to, and so is everything a node generates or submits in reaction to a transaction (C34_nodes_isolated, C34_submissions_isolated, for all secrets and coins)."
  },
  {
   "property": "C35",
   "status": "proved",
   "theorems": [
    "CB.Exonum.C35_exonum_append_only"
   ],
   "note": "For every schema and every list of submissions, labelled or not."
  },
  {
   "property": "C36",
   "status": "partial",
   "theorems": [
    "CB.Exonum.C36_stored_was_validated",
    "CB.Exonum.C36_filed_under_own_id_false",
    "CB.Exonum.C36_filed_under_own_id_partial"
   ],
   "note": "False of the code: the key is taken from the envelope and never compared with the transaction's id."
  },
  {
   "property": "C37",
   "status": "proved",
   "theorems": [
    "CB.Exonum.C37_envelope_roundtrip"
   ],
   "note": "For every transaction of Rust data."
  },
  {
   "property": "C38",
   "status": "partial",
   "theorems": [
    "CB.Exonum.C38_exonum_refines_memstore_partial",
    "CB.Exonum.C38_exonum_refines_memstore_false"
   ],
   "note": "False for mislabelled submissions; refinement proved when all are labelled."
  },
  {
   "property": "C39",
   "status": "partial",
   "theorems": [
    "CB.Api.C39_prefix_query_exact_partial",
    "CB.Api.C39_prefix_query_exact_false"
   ],
   "note": "False for mislabelled entries; exact when all are labelled."
  },
  {
   "property": "C40",
   "status": "proved",
   "theorems": [
    "CB.E2e.C40_e2e_replays"
   ],
   "note": "Exact: success iff the list starts with an election and each transaction is accepted against those before it; the store is then exactly the list."
  },
  {
   "property": "C41",
   "status": "partial",
   "theorems": [
    "CB.E2e.C41_verified_is_counted_false",
    "CB.E2e.C41_verified_is_counted_partial"
   ],
   "note": "False: success says nothing about votes being decrypted (witness: all decryptions missing). Partial: each decryption decrypts an existing item, no item twice."
  },
  {
   "property": "C42",
   "status": "partial",
   "theorems": [
    "CB.C42_commitment_accepted",
    "CB.C42_share_accepted_partial",
    "CB.C42_share_accepted_false",
    "CB.C42_public_key_accepted",
    "CB.C42_encryption_key_accepted"
   ],
   "note": "Proved for commitments, public keys and the encryption key; shares need every stored commitment to sit in its trustee's own slot (commitment ids are not checked by validation), witness in C42_share_accepted_false."
  },
  {
   "property": "C43",
   "status": "partial",
   "theorems": [
    "CB.C43_share_when_complete_partial",
    "CB.C43_public_key_when_complete_partial",
    "CB.C43_encryption_key_when_complete_partial",
    "CB.C43_outsiders_silent",
    "CB.C43_step_complete_false"
   ],
   "note": "Proved under own-slot histories; in general a node counts transactions instead of trustees, witness in C43_step_complete_false."
  },
  {
   "property": "C44",
   "status": "partial",
   "theorems": [
    "CB.C44_first_mix_accepted_partial",
    "CB.C44_first_mix_contests",
    "CB.C44_first_mix_accepted_false",
    "CB.C44_later_mix_never_accepted",
    "CB.C44_later_mix_lacks_only_its_link",
    "CB.C44_later_mix_accepted_false"
   ],
   "note": "C44_later_mix_lacks_only_its_link shows that the missing link is all that is wrong with nodes' later mixes."
  },
  {
   "property": "C45",
   "status": "partial",
   "theorems": [
    "CB.C45_mix_partials_partial",
    "CB.C45_mix_partials_distinct_false",
    "CB.C45_vote_partials_partial",
    "CB.C45_vote_partials_distinct_false",
    "CB.C45_no_contests_false"
   ],
   "note": "With mixnet: one partial decryption per output, ids distinct up to 65536 outputs. Without: one per encrypted vote if the election describes a contest, with an exact criterion for distinct ids. Witnesses for the failing cases."
  },
  {
   "property": "C46",
   "status": "proved",
   "theorems": [
    "CB.C46_decryption_accepted",
    "CB.C46_decryption_when_quorum"
   ],
   "note": "Holds on every ledger; also that a stored quorum makes a node submit."
  },
  {
   "property": "C47",
   "status": "proved",
   "theorems": [
    "CB.C47_serialization_roundtrip",
    "CB.C47_roundtrip_exact",
    "CB.C47_forget_harmless",
    "CB.C47_bytes_injective"
   ],
   "note": "Full serde_cbor data model for every struct; up to num_trustees/threshold of Trustee which are serde(skip). RustData is what any Rust value satisfies, except JSON properties nested deeper than serde_cbor's limit of 127 levels."
  },
  {
   "property": "C48",
   "status": "proved",
   "theorems": [
    "CB.C48_signing_bytes_bind"
   ],
   "note": "Signing bytes are injective up to unserialized fields, across all ten types."
  },
  {
   "property": "C49",
   "status": "proved",
   "theorems": [
    "CB.C49_selection_roundtrip"
   ],
   "note": "prost wire format of Selection."
  },
  {
   "property": "C50",
   "status": "partial",
   "theorems": [
    "CB.C50_share_roundtrip",
    "CB.C50_recipient_reads_share",
    "CB.C50_share_of_other_election",
    "CB.C50_hex_roundtrip",
    "CB.C50_decrypt_never_crashes_partial",
    "CB.C50_decrypt_never_crashes_false"
   ],
   "note": "Round-trip (directly and through generate_shares/decrypt_shares) under AES-GCM correctness, Diffie-Hellman agreement and scalar encoding laws named in the hypotheses; hex round-trip outright. Decryption of fewer than 12 bytes panics, so the no-crash clause is false; it is proved exactly for 12 bytes or more."
  },
  {
   "property": "C51",
   "status": "proved",
   "theorems": [
    "CB.C51_blind_authentication",
    "CB.C51_authentication_genuine",
    "CB.C51_vote_stays_acceptable",
    "CB.C51_no_key_refused",
    "CB.C51_package_binding",
    "CB.C51_new_keys",
    "CB.C51_new_key_size",
    "CB.C51_new_succeeds"
   ],
   "note": "Full exchange proved under the RSA blind-signature law (Spec.BlindSignatures) for every package, key and randomness; ballots without key refused; signed message binds election, ballot, key; keys made by new match. The law itself is proved of textbook blind RSA in Examples/Rsa (C96_textbook_signatures_are_blind)."
  },
  {
   "property": "C52",
   "status": "proved",
   "theorems": [
    "CB.Tally.C52_plurality_counts",
    "CB.Tally.C52_plurality_order_independent"
   ],
   "note": "Exact totals, and independence of the order of ballots and selections. tallystick itself is not in the repository; its running-total behaviour is assumed in the model."
  },
  {
   "property": "C53",
   "status": "partial",
   "theorems": [
    "CB.Tally.C53_one_ballot_one_vote_false",
    "CB.Tally.C53_one_ballot_one_vote_partial"
   ],
   "note": "False: every selection on a plurality ballot is counted. Partial: totals add up to the number of selections; at most one per ballot if ballots have at most one selection."
  },
  {
   "property": "C54",
   "status": "partial",
   "theorems": [
    "CB.Tally.C54_tally_total_false",
    "CB.Tally.C54_tally_total_partial"
   ],
   "note": "False: Schulze (ratio) is unimplemented!(), Dowdall totals panic in tallystick (documented in ballot.rs), and duplicates panic in ranked contests. Partial: exact condition for returning."
  },
  {
   "property": "C55",
   "status": "partial",
   "theorems": [
    "CB.Sawtooth.C55_sawtooth_immutable_partial",
    "CB.Sawtooth.C55_votes_accepted_false",
    "CB.Sawtooth.C55_election_replaced_false"
   ],
   "note": "Votes are never accepted and crash the processor (range is todo!()); elections can be replaced by anyone. Proved: non-election entries are immutable byte for byte, entries are filed under their own ids, and only setup transactions are ever stored."
  },
  {
   "property": "C56",
   "status": "proved",
   "theorems": [
    "CB.C56_key_generation",
    "CB.C56_partial_decryptions_verify",
    "CB.C56_any_quorum_decrypts"
   ],
   "note": "Assumes ThresholdCorrect (the threshold-encryption crate is correct), AesCorrect and DhAgrees. ThresholdCorrect is itself proved, for every field and vector space, of textbook Pedersen/Feldman key generation with ElGamal (CB.ElGamal.threshold_correct), and C56 is instantiated with it. The trustees here run their own code honestly on each other's outputs; what nodes submit to the ledger is C42-C46."
  },
  {
   "property": "C57",
   "status": "partial",
   "theorems": [
    "CB.C57_decoding_never_crashes_false",
    "CB.C57_decoding_never_crashes_partial"
   ],
   "note": "False: an identifier text with a bad type byte or 16-byte content makes from_bytes panic. The partial theorem shows these texts are the only cause."
  },
  {
   "property": "C58",
   "status": "partial",
   "theorems": [
    "CB.Exonum.C58_mixing_cannot_be_blocked_false",
    "CB.Exonum.C58_mixing_cannot_be_blocked_partial"
   ],
   "note": "False: an unlabelled copy of a public vote blocks mixing for ever. Labelled copies, in whatever bytes, are refused."
  },
  {
   "property": "C59",
   "status": "partial",
   "theorems": [
    "CB.E2e.C59_honest_ledger_verifies_partial",
    "CB.E2e.C59_query",
    "CB.E2e.C59_honest_service_verifies_partial",
    "CB.E2e.C59_honest_ledger_verifies_false"
   ],
   "note": "False as stated: a vote posted after the first mix (allowed, mixing does not wait for the end of voting) is replayed before it in id order and the mix is refused (C59_honest_ledger_verifies_false). Proved: every append-only ledger on which the election's transactions satisfy Spec.Orderly (what honest participants do beyond what is validated) verifies, for every interleaving and with other elections around, also through the Exonum service and the read API with the 15-character prefix."
  },
  {
   "property": "C60",
   "status": "partial",
   "theorems": [
    "CB.E2e.C60_printed_tally_false",
    "CB.E2e.C60_printed_tally_partial"
   ],
   "note": "False: an empty decrypted vote crashes the printing. Partial: exact counts otherwise, exact crash conditions; further selections and contests are ignored by the code."
  },
  {
   "property": "C61",
   "status": "proved",
   "theorems": [
    "CB.Tally.C61_score_and_approval"
   ],
   "note": "Exact totals for score and approval contests."
  },
  {
   "property": "C62",
   "status": "proved",
   "theorems": [
    "CB.C62_received_can_be_stored"
   ],
   "note": "Proved for every byte string, including non-canonical encodings."
  },
  {
   "property": "C63",
   "status": "partial",
   "theorems": [
    "CB.Client.C63_election_generate",
    "CB.Client.C63_voting_end_generate",
    "CB.Client.C63_vote_generate_partial",
    "CB.Client.C63_vote_names_election_false"
   ],
   "note": "Elections and ends of voting: exact. Votes: exact provided the encryption key filed under the named election is that election's own; false otherwise (a stranger's election without trustees can file its key in any election's slot, and the client then encrypts to the stranger and votes in the stranger's election)."
  },
  {
   "property": "C64",
   "status": "partial",
   "theorems": [
    "CB.Server.C64_reaction_exact",
    "CB.Server.C64_node_never_crashes_false",
    "CB.Server.C64_envelope_crashes_false",
    "CB.Server.C64_node_never_crashes_partial"
   ],
   "note": "False twice: a stranger can name a node as trustee 1 of a mixnet election and end voting before the encryption key exists (unwrap on None); and an envelope whose id text has 16 bytes or a bad type byte crashes every node. Partial: the cases that cannot crash. C64_reaction_exact gives the exact reaction and crash condition."
  },
  {
   "property": "C65",
   "status": "partial",
   "theorems": [
    "CB.C65_settled_network_is_set_up",
    "CB.C65_set_up_can_be_completed",
    "CB.C65_set_up_reactions_succeed",
    "CB.C65_every_trustee_is_needed",
    "CB.C65_outsiders_cannot_block_set_up_false"
   ],
   "note": "C65_settled_network_is_set_up, C65_set_up_can_be_completed, C65_set_up_reactions_succeed and C65_every_trustee_is_needed are proved for all schedules in which only nodes submit set-up transactions under the election's name. Without that restriction the claim is false of the code (C65_outsiders_cannot_block_set_up_false): ids of key generation transactions are not checked (C16), so an outsider can occupy a trustee's slot. The network model has no message loss and no node restarts."
  },
  {
   "property": "C66",
   "status": "partial",
   "theorems": [
    "CB.C66_decryptions_are_right",
    "CB.C66_votes_are_decrypted",
    "CB.C66_tally_can_be_completed",
    "CB.C66_partials_of_honest_votes_crash_nobody",
    "CB.C66_decryptions_are_right_false",
    "CB.C66_votes_crash_nobody_false"
   ],
   "note": "C66_decryptions_are_right, C66_votes_are_decrypted, C66_tally_can_be_completed and C66_partials_of_honest_votes_crash_nobody are proved for all schedules in which nobody but the nodes submits set-up transactions or trustee-signed partial decryptions of the election, for votes made with the client whose one-time key prefix is unique, and for decryptions that list no trustee twice (or a primitive that insists on a quorum). C66_decryptions_are_right_false: without that proviso an outsider can have a wrong decryption accepted, because validation counts repeated trustees. C66_votes_crash_nobody_false: an eligible voter's malformed ciphertext makes trustees' nodes panic. The network model has no message loss and no node restarts; a crashed reaction has no effect there."
  },
  {
   "property": "C67",
   "status": "partial",
   "theorems": [
    "CB.C67_own_record",
    "CB.C67_strangers_crash",
    "CB.C67_library_and_node_agree",
    "CB.C67_library_and_node_agree_false",
    "CB.C67_new_trustee"
   ],
   "note": "C67_own_record, C67_strangers_crash and C67_new_trustee say exactly what the lookups return. Library and node agree where no two trustees share a key and no index is 0 (C67_library_and_node_agree); elections whose trustees share a key are accepted, and there they disagree (C67_library_and_node_agree_false)."
  },
  {
   "property": "C68",
   "status": "partial",
   "theorems": [
    "CB.C68_decryptions_are_right",
    "CB.C68_votes_are_mixed_and_decrypted_partial",
    "CB.C68_tally_can_be_completed_partial",
    "CB.C68_what_decryptions_take",
    "CB.C68_tally_can_be_completed_false",
    "CB.C68_left_out_contest_false"
   ],
   "note": "Proved for elections in which one trustee's share is enough (trusteesThreshold = 1) and every voter voted exactly once in the contest. Missing: it is false otherwise (C68_tally_can_be_completed_false, C68_left_out_contest_false; C68_what_decryptions_take shows nothing is ever decrypted then): with a threshold of two or more, the nodes' second mixes are refused (see C44), and with a contest left out by some voter the first mix is refused. Schedules in which outsiders submit a decryption naming another election's mix, or the authority posts a second VotingEnd under an odd id, are excluded by FairMix."
  },
  {
   "property": "C69",
   "status": "partial",
   "theorems": [
    "CB.C69_held_elections_verify",
    "CB.C69_client_elections_are_counted",
    "CB.C69_held_elections_verify_false",
    "CB.C69_held_elections_verify_together"
   ],
   "note": "C69_held_elections_verify: at every moment of every FairE2e schedule (set-up, mixes and partial decryptions of the election come from its nodes; ends of voting and decryptions filed under the election are about it) the e2e command accepts the election's transactions in id order, if the voters' one-time keys differ in their first ten bytes and no other stored id starts with the queried prefix. C69_client_elections_are_counted: for elections and votes of the command line client the nodes can always finish, and the printed tally is the multiset of the voters' texts. C69_held_elections_verify_false: the proviso on ends of voting is needed, since validation lets a stranger file the end of another election under this one. C69_held_elections_verify_together replaces the proviso that no other id starts with the queried prefix by: all elections that begin alike are held by their nodes."
  },
  {
   "property": "C70",
   "status": "partial",
   "theorems": [
    "CB.C70_blocks_set_up",
    "CB.C70_blocks_decryptions_are_right",
    "CB.C70_blocks_votes_are_decrypted",
    "CB.C70_blocks_mix_and_decrypt_partial",
    "CB.C70_blocks_verify",
    "CB.C70_blocks_count_client_elections",
    "CB.C70_reposting_makes_nodes_react",
    "CB.C70_lost_submissions_are_made_up_for_false",
    "CB.C70_blocks_verify_together"
   ],
   "note": "Partial: proved for schedules in which submissions carry their own id (Labelled; C36/C38 say what happens otherwise) and for mixnets with threshold 1 (see C68); false when submissions get lost, of which C70_lost_submissions_are_made_up_for_false is the witness. C70_blocks_verify_together: several elections whose ids begin alike verify together if each is held by its nodes."
  },
  {
   "property": "C71",
   "status": "partial",
   "theorems": [
    "CB.C71_nodes_come_to_rest",
    "CB.C71_elections_are_set_up",
    "CB.C71_votes_are_decrypted",
    "CB.C71_votes_are_mixed_and_decrypted_partial",
    "CB.C71_client_elections_are_counted",
    "CB.C71_votes_are_mixed_and_decrypted_false"
   ],
   "note": "Partial because in elections with mixnet the nodes decrypt only with a threshold of 1 (see C68) and only contests in which everybody voted; C71_votes_are_mixed_and_decrypted_false is an endless schedule in which one voter abstains and the other's vote is never decrypted although all nodes do their duty. That nodes complete their hooks (do not crash) is part of the assumption on schedules: C64 and C66 say who can crash them. The proof that nodes come to rest uses that there are finitely many ids, so it gives no useful bound on the time."
  },
  {
   "property": "C72",
   "status": "partial",
   "theorems": [
    "CB.C72_verified_decryptions_are_right",
    "CB.C72_verified_votes_count_once",
    "CB.C72_printed_tally_is_backed",
    "CB.C72_verified_mixed_votes_count_once_partial",
    "CB.C72_verified_mixed_votes_count_once_false",
    "CB.C72_one_ballot_per_voter_false"
   ],
   "note": "Assumes ShuffleSound, ThresholdSound for the stored public-key proofs (SoundKeys; the code does not check that they belong to the encryption key), different first ten key bytes of voters and different trustee indexes. Without mixnet proved in full; with mixnet proved per mix. False in part: outputs of an inner mix can be decrypted too, so that one vote counts twice in a verified, printed tally; and one voter can hold two encrypted votes for a contest if another left it out."
  },
  {
   "property": "C73",
   "status": "proved",
   "theorems": [
    "CB.C73_left_out_contest_is_never_counted"
   ],
   "note": "Proved for every later ledger; the hypothesis on shuffle proofs is only that verified shuffles have as many outputs as inputs. Decryptions are those whose upstream mix is of the election (C29, C30 for foreign mixes)."
  },
  {
   "property": "C74",
   "status": "partial",
   "theorems": [
    "CB.Json.C74_json_roundtrip",
    "CB.Json.C74_json_list_roundtrip",
    "CB.Json.C74_json_text_determines",
    "CB.Json.C74_printed_transaction_is_posted",
    "CB.Json.C74_printed_list_is_posted",
    "CB.Json.C74_rest_lookup_is_faithful",
    "CB.Json.C74_rest_listing_is_faithful_partial",
    "CB.Json.C74_e2e_verifies_the_ledger",
    "CB.Json.C74_deep_transactions_cannot_be_listed",
    "CB.Json.C74_rest_listing_is_faithful_false"
   ],
   "note": "Round trip proved for every transaction whose application-specific properties JSON can carry (no fractional numbers, no byte strings, nesting of at most 120 containers, 119 in lists). False without the bound on nesting: a stranger's election nested 127 deep is accepted by every node, and from then on every prefix query it falls under gives an answer that the client cannot read, so that `e2e` panics (C74_rest_listing_is_faithful_false, C74_deep_transactions_cannot_be_listed). serde_json is modelled as text is printed and read (escapes, numbers, recursion limit), without its `arbitrary_precision` feature."
  },
  {
   "property": "C75",
   "status": "proved",
   "theorems": [
    "CB.C75_acceptance_is_stable",
    "CB.C75_conflicts_are_real"
   ],
   "note": "Stated over any two stores that obey the storage contract, the later keeping what the earlier holds. Spec/Order.lean lists the exceptions; C75_conflicts_are_real shows that each exception (other than for decryptions) really makes the transaction unacceptable."
  },
  {
   "property": "C76",
   "status": "partial",
   "theorems": [
    "CB.Exonum.C76_order_of_votes_is_irrelevant_partial",
    "CB.Exonum.C76_votes_in_any_order_partial",
    "CB.Exonum.C76_order_of_votes_is_irrelevant_false"
   ],
   "note": "Proviso: no two of the votes have keys for one election that start with the same 10 bytes. Without it the order matters (C76_order_of_votes_is_irrelevant_false)."
  },
  {
   "property": "C77",
   "status": "partial",
   "theorems": [
    "CB.C77_depends_on_listed_trustees_partial",
    "CB.C77_spoiler_blocks_decryptions",
    "CB.C77_spoiler_blocks_nodes",
    "CB.C77_quorum_is_enough_for_nodes_false"
   ],
   "note": "The first half holds, provided the listed trustees do not post further public keys. The second half is false: validation accepts any number of public keys from a trustee, the one with the greatest id counts, and nodes decrypt with all partial decryptions there are. A single trustee who first posts a partial decryption and then another public key blocks all nodes from decrypting the item, for good. Assumes that threshold decryption refuses shares that do not verify (StrictShares)."
  },
  {
   "property": "C78",
   "status": "partial",
   "theorems": [
    "CB.E2e.C78_results_are_final_partial",
    "CB.E2e.C78_only_a_quorum_changes_results",
    "CB.E2e.C78_results_are_final_false",
    "CB.E2e.C78_unlabelled_false"
   ],
   "note": "Proved for elections without mixnet, for nodes' ledgers and the verifier's replay, with any other elections on the ledger, as long as submissions are labelled with their ids; false with a mixnet (witness: outputs of an inner mix decrypted after the results) and with mislabelled submissions (witness: a vote of another election counted after the results). In every case, also with mixnet, a verified tally changes only if a decryption was added that threshold many trustees have signed shares for (C78_only_a_quorum_changes_results)."
  },
  {
   "property": "C79",
   "status": "partial",
   "theorems": [
    "CB.C79_votes_can_be_copied",
    "CB.C79_ballot_independence_false",
    "CB.C79_ballot_independence_partial"
   ],
   "note": "The claim is false: proved in general that every accepted vote can be recast under any fresh key (no authentication needed). What holds: authentications of different voters for the same ballot are never shared (under binding of the signature scheme)."
  },
  {
   "property": "C80",
   "status": "proved",
   "theorems": [
    "CB.Cli.C80_secret_key_option",
    "CB.Cli.C80_generated_keys_work",
    "CB.Cli.C80_development_key",
    "CB.Cli.C80_printed_is_posted",
    "CB.Cli.C80_given_key_signs",
    "CB.Cli.C80_lists_are_posted",
    "CB.Cli.C80_generated_transactions_print",
    "CB.Cli.C80_get_then_post",
    "CB.Cli.C80_generated_trustee",
    "CB.Cli.C80_generated_trustees_never_decrypt",
    "CB.Cli.C80_generated_authenticator",
    "CB.Cli.C80_generated_authenticator_is_refused"
   ],
   "note": "All parts proved for the model of the command line in Model/Cli, given that nothing interferes with files; the text of the authenticators' secrets is not modelled. Two negative facts are proved outright: generated trustees never decrypt with a threshold of two, generated authenticators are refused in generated elections."
  },
  {
   "property": "C81",
   "status": "proved",
   "theorems": [
    "CB.C81_decoder_reads_exactly_the_encodings",
    "CB.C81_encodings_are_unambiguous",
    "CB.C81_any_encoding_reads",
    "CB.C81_written_is_an_encoding",
    "CB.C81_every_transaction_can_be_rewritten",
    "CB.C81_anything_can_be_added",
    "CB.Exonum.C81_rewriting_changes_nothing",
    "CB.Json.C81_text_is_utf8"
   ],
   "note": "The relation Encodes (Spec/Encoding) is RFC 7049 written down independently of the decoder; the decoder is proved sound and complete for it by induction over the nesting depth. Not covered: map keys that are not text (refused by the model), big numbers."
  },
  {
   "property": "C82",
   "status": "partial",
   "theorems": [
    "CB.C82_unsigned_roundtrip",
    "CB.C82_signed_is_unsigned_and_signature",
    "CB.C82_readable_as_one_only_partial",
    "CB.C82_serialization_is_not_signed",
    "CB.C82_readable_as_one_only_false"
   ],
   "note": "The round trip is C82_unsigned_roundtrip; C82_signed_is_unsigned_and_signature relates both kinds; C82_readable_as_one_only_partial covers the bytes that programs write. In full the claim is false: C82_readable_as_one_only_false gives bytes that are read as both, since unknown fields are ignored."
  },
  {
   "property": "C83",
   "status": "partial",
   "theorems": [
    "CB.C83_open_election_takes_votes",
    "CB.Exonum.C83_cast_votes_are_filed_partial",
    "CB.Exonum.C83_strangers_cannot_keep_voters_out_false",
    "CB.Exonum.C83_other_elections_cannot_keep_voters_out_false"
   ],
   "note": "C83_open_election_takes_votes and C83_cast_votes_are_filed_partial prove it under the provisos named in the statement. In full it is false, in two independent ways: C83_strangers_cannot_keep_voters_out_false (an end of voting by the authority of another election) and C83_other_elections_cannot_keep_voters_out_false (a mislabelled envelope)."
  },
  {
   "property": "C84",
   "status": "partial",
   "theorems": [
    "CB.Tally.C84_borda_points_partial",
    "CB.Tally.C84_order_is_irrelevant_partial",
    "CB.Tally.C84_equal_ranks_equal_points_false"
   ],
   "note": "Points by position, as documented in ballot.rs, assumed of tallystick. False for equal ranks: the one listed first gets more. Partial: totals are the documented ones for ballots with distinct ranks, whatever their order."
  },
  {
   "property": "C85",
   "status": "partial",
   "theorems": [
    "CB.Tally.C85_head_to_head_partial",
    "CB.Tally.C85_head_to_head_false"
   ],
   "note": "Head-to-head counting by tallystick is a parameter with a stated law (a lawful one is exhibited). False for names that contain \" > \". Partial: names without \">\", every voter ranks every candidate."
  },
  {
   "property": "C86",
   "status": "partial",
   "theorems": [
    "CB.E2e.C86_printed_votes",
    "CB.E2e.C86_printed_winner_partial",
    "CB.E2e.C86_printed_winner_false"
   ],
   "note": "tallystick's winners() is a parameter of which it is assumed that nobody has more votes than a winner. False for ties. The printed votes are proved in full."
  },
  {
   "property": "C87",
   "status": "partial",
   "theorems": [
    "CB.C87_verdicts_differ_by_overflow",
    "CB.Exonum.C87_nodes_agree_partial",
    "CB.Sawtooth.C87_sawtooth_nodes_agree",
    "CB.Exonum.C87_nodes_agree_false"
   ],
   "note": "Verdict for verdict on arbitrary stores; whole Exonum histories under the proviso that no election lists a trustee of index 0; whole Sawtooth histories without proviso. The counterexample is a history of 514 accepted submissions, built by induction."
  },
  {
   "property": "C88",
   "status": "partial",
   "theorems": [
    "CB.E2e.C88_other_elections_make_no_difference",
    "CB.Client.C88_report_is_about_election_partial",
    "CB.Client.C88_own_votes_only_partial",
    "CB.Client.C88_report_is_about_election_false",
    "CB.Client.C88_report_despite_others_false",
    "CB.Client.C88_own_votes_only_false",
    "CB.C88_elections_verify_together"
   ],
   "note": "Proved: the report does not depend on other elections with greater ids that begin alike, and counts only votes of the election reported on, if submissions are labelled with their ids. False: a stranger's election with a lesser id is reported instead; a stranger's election can make the command fail; with mislabelled submissions a vote of another election is counted. Hypotheses on properties as in C74. C88_elections_verify_together: elections that verify each by itself verify together."
  },
  {
   "property": "C89",
   "status": "partial",
   "theorems": [
    "CB.E2e.C89_report_is_unambiguous_partial",
    "CB.E2e.C89_report_shows_figures",
    "CB.E2e.C89_report_is_unambiguous_false"
   ],
   "note": "Proved that the output of the command is the figures it finds, and that the text determines the figures if no text that was voted for has line breaks. False with line breaks (one vote looks like two candidates). The order of totals and the winners are parameters (tallystick)."
  },
  {
   "property": "C90",
   "status": "partial",
   "theorems": [
    "CB.C90_votes_stay_sealed_partial",
    "CB.C90_what_is_opened_partial",
    "CB.C90_votes_stay_sealed_false"
   ],
   "note": "False without labels (concrete attack that opens every vote); proved for labelled submissions, on schedules of blocks and hooks with everything allowed but the authority's end of voting (and mixes by hand of too many trustees)."
  },
  {
   "property": "C91",
   "status": "partial",
   "theorems": [
    "CB.C91_shares_only_for_trustees_partial",
    "CB.C91_shares_only_for_trustees_false",
    "CB.C91_shares_sent_later_false",
    "CB.C91_shares_read_votes"
   ],
   "note": "The partial theorem covers every schedule in which submissions carry their own ids and commitments filed under the election are about it. Both provisos are shown to be needed by concrete histories. C91_shares_read_votes is about textbook threshold ElGamal over any field and group, since the third-party crate is not in the sandbox."
  },
  {
   "property": "C92",
   "status": "partial",
   "theorems": [
    "CB.E2e.C92_counted_by_type_false",
    "CB.E2e.C92_contests_apart_false",
    "CB.E2e.C92_only_candidates_false",
    "CB.E2e.C92_printed_is_the_contest_partial"
   ],
   "note": "False: `C92_counted_by_type_false` (score contest), `C92_contests_apart_false` (two plurality contests pooled), `C92_only_candidates_false`. `C92_printed_is_the_contest_partial` holds if all decryptions are of one contest with one selection each."
  },
  {
   "property": "C93",
   "status": "partial",
   "theorems": [
    "CB.C93_crashed_nodes_set_up",
    "CB.C93_decryptions_are_right_despite_crashes",
    "CB.C93_votes_are_decrypted_despite_crashes",
    "CB.C93_elections_verify_despite_crashes",
    "CB.C93_client_elections_are_counted_despite_crashes",
    "CB.C93_missed_election_is_never_set_up",
    "CB.C93_restarted_nodes_catch_up_false"
   ],
   "note": "Partial: proved for schedules in which submissions carry their own id (Labelled), for mixnets with threshold 1 (see C68), and when what nodes left undone has been made up for (Quiet); C93_restarted_nodes_catch_up_false is the witness that nodes do not catch up by themselves, and C93_missed_election_is_never_set_up says so for all schedules."
  },
  {
   "property": "C94",
   "status": "proved",
   "theorems": [
    "CB.Json.C94_reader_reads_exactly_json",
    "CB.Json.C94_text_is_unambiguous",
    "CB.Json.C94_transaction_text",
    "CB.Json.C94_any_layout_reads",
    "CB.Json.C94_printed_is_json",
    "CB.Json.C94_deep_text_is_refused",
    "CB.Json.C94_nested_text_is_read",
    "CB.Json.C94_what_a_file_posts",
    "CB.Json.C94_any_file_of_transactions_is_posted"
   ],
   "note": "serde_json is third-party: its reader is modelled. Numbers with a fraction or an exponent or beyond 64 bits are outside the model (refused). UTF-8 is Lean's own encoding of characters; C81_text_is_utf8 ties the model's checker to it."
  },
  {
   "property": "C95",
   "status": "partial",
   "theorems": [
    "CB.C95_decoder_reads_exactly",
    "CB.C95_plaintext_is_unambiguous",
    "CB.C95_encoded_selection_says_it",
    "CB.C95_later_fields_win",
    "CB.C95_accepted_decryption_says_the_plaintext",
    "CB.C95_plaintexts_can_be_marked",
    "CB.C95_one_plaintext_for_each_selection_false"
   ],
   "note": "The grammar is Spec/Selection.lean, written from the protobuf description: base 128 numbers, keys, sized bytes, groups. The decoder (prost 0.7, third-party) is modelled byte for byte, including skipped groups and its recursion limit. False part: equal selections need not have equal plaintexts, so votes can be marked."
  },
  {
   "property": "C96",
   "status": "partial",
   "theorems": [
    "CB.C96_requests_are_equally_likely",
    "CB.C96_authenticators_cannot_link",
    "CB.C96_textbook_signatures_are_blind",
    "CB.C96_badly_made_keys_false"
   ],
   "note": "Information-theoretic: proved by bijections of coins, for all voters and all authenticators colluding, under PerfectBlinding and OneSignature (Spec/Unlinkable). Both, and the law of C51, are proved of textbook blind RSA over every modulus (Examples/Rsa, C96_textbook_signatures_are_blind). False for keys that are not well made (witness: modulus 21, exponent 3), which no check refuses. Traffic and timing are not modelled."
  },
  {
   "property": "C97",
   "status": "proved",
   "theorems": [
    "CB.C97_first_mixes_hide_voters",
    "CB.C97_later_mixes_hide_voters",
    "CB.C97_textbook_shuffles_mix_perfectly"
   ],
   "note": "Information-theoretic, by bijections of coins, under PerfectMixing (Spec/Mixing); proofs of shuffles and the signatures over them are left out (what they reveal depends on the proof system). Examples/Mixing proves PerfectMixing, MixCorrect, ShuffleWorks and ShuffleSound of textbook re-encryption shuffles over threshold ElGamal, with idealised proofs (C97_textbook_shuffles_mix_perfectly). Marks inside plaintexts (C95) and shares of unmixed votes (C90) are outside this claim."
  },
  {
   "property": "C98",
   "status": "partial",
   "theorems": [
    "CB.C98_votes_within_signatures_partial",
    "CB.C98_all_signatures_partial",
    "CB.C98_no_more_votes_than_voters_false",
    "CB.C98_authenticated_votes_false",
    "CB.C98_anyone_can_stuff_the_box"
   ],
   "note": "False in full, with two witnesses (votes without signatures; one voter, two authenticators, threshold one). The counting bound is proved for votes that carry the required signatures, with what authenticators signed as a separate specification (Spec/Voters). C98_anyone_can_stuff_the_box builds the extension of any ledger on which the election is open."
  },
  {
   "property": "C99",
   "status": "partial",
   "theorems": [
    "CB.C99_coins_show_the_vote",
    "CB.C99_votes_can_be_denied_false"
   ],
   "note": "False, and refuted for every vote rather than by one witness only: C99_coins_show_the_vote needs only that decryption undoes encryption (ThresholdCorrect), which the textbook construction in Examples satisfies."
  },
  {
   "property": "C100",
   "status": "partial",
   "theorems": [
    "CB.C100_verdicts_ignore_settings",
    "CB.C100_nodes_ignore_settings",
    "CB.C100_reports_ignore_settings",
    "CB.C100_batches_are_limited_false"
   ],
   "note": "Stated as equality of verdicts, generated transactions and printed results for pairs of ledgers that differ in the other settings (Spec/Settings). An election's own validation does look at the number of authenticators required (it must not exceed their number), hence both elections are assumed valid in C100_reports_ignore_settings. The batch limit is refuted by a verified file."
  },
  {
   "property": "C101",
   "status": "partial",
   "theorems": [
    "CB.Sawtooth.C101_sawtooth_is_exonum_set_up",
    "CB.Sawtooth.C101_same_elections_false"
   ],
   "note": "Refinement by induction over payload sequences (Props/Backends). `forget` drops the two trustee fields that are never serialized: Sawtooth stores its own serialization, Exonum the bytes received."
  },
  {
   "property": "C102",
   "status": "proved",
   "theorems": [
    "CB.C102_shares_fit_every_secret",
    "CB.C102_commitments_follow",
    "CB.C102_decryption_shares_follow"
   ],
   "note": "About the textbook scheme of Examples/ElGamal (Pedersen's key generation with Feldman commitments, ElGamal, Lagrange interpolation), which stands in for the third-party crate; the code's trustees run it honestly (C56). What is left out: that discrete logarithms are hard (so that the public key does not give the secret key away), the Chaum-Pedersen proofs beside decryption shares, and the shares encrypted for others (AES under Diffie-Hellman keys). The coefficients are drawn from a hash of the trustee's secret key and the id of the election; that these look random is assumed by whoever reads the theorem as secrecy. C91 shows how the threshold is got round through lookalike elections."
  },
  {
   "property": "C103",
   "status": "partial",
   "theorems": [
    "CB.Exonum.C103_reader_reads_exactly",
    "CB.Exonum.C103_submission_is_unambiguous",
    "CB.Exonum.C103_wire_roundtrip",
    "CB.Exonum.C103_sent_is_received",
    "CB.Exonum.C103_storage_is_the_ledger",
    "CB.Exonum.C103_carried_out_once",
    "CB.Exonum.C103_one_encoding_false"
   ],
   "note": "rust-protobuf's reader and writer are modelled for this message (Model/Wire). Simplified: groups among unknown fields are refused (the crate skips them); sizes are written as they are, which agrees below 4 GiB. Exonum's own envelope around the message (call info, author, signature) is not modelled."
  },
  {
   "property": "C104",
   "status": "partial",
   "theorems": [
    "CB.Tally.C104_who_wins",
    "CB.Tally.C104_order_is_irrelevant",
    "CB.Tally.C104_seats_are_filled",
    "CB.Tally.C104_majority_wins",
    "CB.Tally.C104_one_seat_picks_the_top",
    "CB.Tally.C104_seats_suffice_false",
    "CB.Tally.C104_bad_ballots_are_spoiled_false"
   ],
   "note": "Ranks and winners are computed by tallystick, whose documented behaviour is modelled (Model/Winners.lean: equal totals share a rank, winners are taken until the seats are filled and ties for the last seat win). With no seat nothing is claimed. Condorcet and Schulze contests are not covered. The tally never looks at the contest's list of candidates, so a winner need not be one of them (C52 counts whatever is named)."
  },
  {
   "property": "C105",
   "status": "partial",
   "theorems": [
    "CB.C105_shown_decryptions_are_real_partial",
    "CB.C105_nobody_gets_more_votes_partial",
    "CB.C105_no_vote_can_be_added_partial",
    "CB.C105_mixed_votes_cannot_be_hidden",
    "CB.C105_same_result_false",
    "CB.C105_nobody_gets_more_votes_false",
    "CB.C105_mixed_results_agree"
   ],
   "note": "Partial because the statement is false in full; both negations are proved with concrete elections. The real ledger is any list that verifies as well; for the mixnet theorem its transactions are in the order in which nodes answer (by id)."
  },
  {
   "property": "C106",
   "status": "partial",
   "theorems": [
    "CB.C106_other_secrets_are_not_used",
    "CB.C106_histories_use_their_own_secrets",
    "CB.C106_secrets_are_independent",
    "CB.C106_blockchain_uses_own_secrets_partial",
    "CB.C106_one_commitment_per_election_partial",
    "CB.C106_one_commitment_per_election_false"
   ],
   "note": "Non-use is stated as independence: for any two ways to derive secrets that agree on the election named, nodes publish the same (C106_other_secrets_are_not_used, C106_histories_use_their_own_secrets, and C106_blockchain_uses_own_secrets_partial where every submission is labelled with the id of what it carries). C106_secrets_are_independent: any choice of secrets per trustee, election and purpose is met by some derivation, so the inputs never collide. C106_one_commitment_per_election_partial: one commitment per trustee and election if ledgers file transactions under their ids; C106_one_commitment_per_election_false: on Exonum with a mislabelled copy, two commitments of different thresholds."
  },
  {
   "property": "C107",
   "status": "partial",
   "theorems": [
    "CB.C107_size_without_mixnet_partial",
    "CB.C107_size_with_mixnet_partial",
    "CB.C107_mixes_within_trustees",
    "CB.C107_decryptions_within_shares",
    "CB.C107_ledger_size_false",
    "CB.C107_own_votes_false",
    "CB.C107_mixes_of_contests_false",
    "CB.C107_trustees_can_flood"
   ],
   "note": "C107_size_without_mixnet_partial and C107_size_with_mixnet_partial bound everything that names an election, if steps of set-up are filed under their own ids (ProperlyFiled) and counting votes or mix outputs of all elections on the ledger; the sample election without mixnet reaches the bound. C107_mixes_within_trustees and C107_decryptions_within_shares hold in full. C107_ledger_size_false, C107_own_votes_false, C107_mixes_of_contests_false are the witnesses for what is missing, and C107_trustees_can_flood says that there is no bound at all without the condition on ids."
  },
  {
   "property": "C108",
   "status": "partial",
   "theorems": [
    "CB.Cli.C108_as_typed_partial",
    "CB.Cli.C108_file_names",
    "CB.Cli.C108_identifiers_as_typed",
    "CB.Cli.C108_command_line_wins",
    "CB.Cli.C108_secret_saved",
    "CB.Cli.C108_other_files",
    "CB.Cli.C108_secrets_kept_false",
    "CB.Cli.C108_votes_as_typed_false"
   ],
   "note": "Partial: the program acts on the arguments as typed unless they contain a dollar sign or start with a tilde (identifiers never do); settings of the command line win over the environment; secrets are saved before anything is shown and no other file changes. False of the code: votes are kept as typed (C108_votes_as_typed_false), a secret already in the named file is kept (C108_secrets_kept_false)."
  },
  {
   "property": "C109",
   "status": "partial",
   "theorems": [
    "CB.Tally.C109_names_are_irrelevant",
    "CB.Tally.C109_support_never_hurts",
    "CB.Tally.C109_changed_mark_never_hurts",
    "CB.Tally.C109_higher_rank_never_hurts",
    "CB.Tally.C109_districts_partial",
    "CB.Tally.C109_stray_ballot_partial",
    "CB.Tally.C109_districts_false",
    "CB.Tally.C109_stray_ballot_false",
    "CB.Tally.C109_districts_seats_false"
   ],
   "note": "Partial in one point: joining districts is proved where a ballot counts for itself (plurality, score, approval, modified Borda) and one seat; it is false for Borda and Borda classic and for several seats (C109_districts_false, C109_districts_seats_false). Names being irrelevant and support never hurting are proved in full."
  },
  {
   "property": "C110",
   "status": "partial",
   "theorems": [
    "CB.C110_reasons_are_true_partial",
    "CB.C110_voters_are_told_the_truth",
    "CB.C110_faults_refuse_partial",
    "CB.C110_missing_share_false",
    "CB.C110_authenticators_false",
    "CB.C110_ascending_false",
    "CB.C110_positions_false"
   ],
   "note": "Partial because four reasons can be untrue (C110_..._false); Misleading says what is true instead. C110_faults_refuse_partial is the converse for every reason but the key collision (which accepted votes can have, C21), with checked arithmetic and different ids of authenticators and ballots; it shows that Fault is not too wide."
  },
  {
   "property": "C111",
   "status": "partial",
   "theorems": [
    "CB.C111_texts_differ",
    "CB.C111_verifier_is_told",
    "CB.C111_sender_is_told",
    "CB.C111_exonum_tells_why_false"
   ],
   "note": "Texts of all validation errors, of the failures of the end-to-end command and of the Sawtooth processor, as byte strings; the texts of cryptid, ed25519 and serde errors are parameters, assumed to differ among cryptid's errors. False on Exonum, with a witness."
  },
  {
   "property": "C112",
   "status": "proved",
   "theorems": [
    "CB.C112_refusals_are_final",
    "CB.C112_no_point_in_retrying",
    "CB.C112_passing_reasons_pass",
    "CB.Exonum.C112_refused_ever_after"
   ],
   "note": "For every type of transaction and in both builds, along histories in which stored transactions stay as they are (Exonum; a Sawtooth election can be replaced, C55). The nine reasons that can pass are each shown to pass by a concrete history."
  },
  {
   "property": "C113",
   "status": "proved",
   "theorems": [
    "CB.Exonum.C113_persistence_pays",
    "CB.Exonum.C113_rounds_suffice",
    "CB.Exonum.C113_late_votes_are_lost"
   ],
   "note": "Proved of the Exonum ledger by induction over the attempts; what gets in the way is Spec.Conflicts (shown to be real in C75_conflicts_are_real). The condition on elections that forget changes nothing says that the trustees carry no values in the two fields that are not serialized. C113_late_votes_are_lost shows that the condition about getting in the way cannot be dropped."
  },
  {
   "property": "C114",
   "status": "proved",
   "theorems": [
    "CB.Exonum.C114_rebuilt_is_same",
    "CB.Exonum.C114_again_changes_nothing",
    "CB.Exonum.C114_state_is_what_was_accepted",
    "CB.Exonum.C114_verified_can_be_posted",
    "CB.Exonum.C114_listing_is_carried_over",
    "CB.Exonum.C114_copied_with_the_tools"
   ],
   "note": "Proved for the Exonum ledger and the node's listing. That nothing gets in the way is stated with Spec.Conflicts and ids; a ledger that holds nothing of the election and of elections named in its transactions satisfies it. Rebuilding from accepted submissions needs no condition at all, not even right labels."
  },
  {
   "property": "C115",
   "status": "partial",
   "theorems": [
    "CB.Sawtooth.C115_last_announcement_counts",
    "CB.Sawtooth.C115_old_announcements_come_back",
    "CB.Sawtooth.C115_rebuilt_is_same",
    "CB.Sawtooth.C115_order_is_irrelevant_false"
   ],
   "note": "Which announcement is stored and that the state can be rebuilt is proved for all histories; that the order of what was applied does not matter is false (C115_order_is_irrelevant_false), with the two announcements of C55 as witness."
  },
  {
   "property": "C116",
   "status": "partial",
   "theorems": [
    "CB.E2e.C116_order_shown_is_irrelevant_partial",
    "CB.E2e.C116_any_order_false"
   ],
   "note": "Which of several transactions with one id counts depends on the order in which a node shows them; if there are none, the order is irrelevant for every report the command can print."
  }
 ]
}