{"id": "C01", "title": "Identifier text round-trip", "statement": "Printing any Identifier and parsing the text gives back the same Identifier; the printed text is always 64 lowercase hexadecimal characters, and two different Identifiers never print the same text.", "quantifier": "every Identifier (15-byte election id, any transaction type, 16-byte unique info)", "why_tests_cant": "There are 2^248*10 identifiers; tests sample a handful.", "anchors": ["cryptoballot/src/transaction.rs: Identifier::to_array, Display, FromStr"]}
{"id": "C02", "title": "Parsing identifier text never crashes", "statement": "Identifier::from_str on any text returns Ok or Err and never panics; it succeeds exactly on 64 hex digits (either case) whose 16th byte is a transaction type 1..10.", "quantifier": "every input text", "why_tests_cant": "Unbounded input space; the crashing inputs are rare shapes.", "anchors": ["cryptoballot/src/transaction.rs: FromStr for Identifier, Deserialize for Identifier"]}
{"id": "C03", "title": "Identifier order is byte order and text order", "statement": "Comparing Identifiers with cmp is a total order that agrees with partial_cmp, with lexicographic order of the 32-byte array, and with byte order of the printed text, so a store keyed by text iterates in Identifier order.", "quantifier": "every pair and triple of Identifiers", "why_tests_cant": "Order laws quantify over all pairs/triples.", "anchors": ["cryptoballot/src/transaction.rs: Ord for Identifier, PartialOrd for Identifier, to_array", "cryptoballot/src/store.rs: MemStore::range"]}
{"id": "C04", "title": "Type scan is exact", "statement": "get_multiple(election, type) on a MemStore returns exactly the stored transactions whose id has that election and type, each once, in ascending id order, and never panics.", "quantifier": "every MemStore content, election and transaction type", "why_tests_cant": "Boundaries (all-0 and all-255 unique info) and all contents must be covered.", "anchors": ["cryptoballot/src/store.rs: Store::get_multiple, MemStore::range", "cryptoballot/src/transaction.rs: Identifier::start, Identifier::end"]}
{"id": "C05", "title": "Range scan is exact", "statement": "MemStore::range(a,b) returns exactly the stored transactions with a <= id <= b in ascending order, and panics exactly when a > b.", "quantifier": "every store content and pair of identifiers", "why_tests_cant": "All contents and bounds.", "anchors": ["cryptoballot/src/store.rs: MemStore::range"]}
{"id": "C06", "title": "MemStore is a map keyed by transaction id", "statement": "After any sequence of set calls, get_transaction(id) returns the last transaction set with that id, or None if none was; building a store from a list equals setting its elements in order, and the order does not matter when ids are distinct.", "quantifier": "every sequence of set operations and every id", "why_tests_cant": "Needs induction over operation sequences.", "anchors": ["cryptoballot/src/store.rs: MemStore::set, get_transaction, From<Vec<SignedTransaction>>"]}
{"id": "C07", "title": "Ledger ids for keygen, encryption-key and mix steps are collision free", "statement": "The id builders for commitment, share, public key, encryption key, voting end and mix produce equal ids only for equal (election, kind, trustee/contest/batch/mix index) arguments.", "quantifier": "every pair of argument tuples", "why_tests_cant": "Injectivity ranges over all pairs.", "anchors": ["cryptoballot/src/keygen.rs: build_id", "cryptoballot/src/mix.rs: MixTransaction::build_id", "cryptoballot/src/voting_end.rs: VotingEndTransaction::new", "cryptoballot/src/vote.rs: VoteTransaction::build_id"]}
{"id": "C08", "title": "Decryption ids are collision free", "statement": "Two partial decryptions (or decryptions) of different items - different upstream transaction, contest, index or trustee - of one election never share an id.", "quantifier": "every pair of upstream ids, contests, indexes and trustees", "why_tests_cant": "Injectivity over all pairs; collisions are adversarially constructible, not random.", "anchors": ["cryptoballot/src/decryption.rs: build_unique_info, PartialDecryptionTransaction::build_id, DecryptionTransaction::build_id"]}
{"id": "C09", "title": "No type confusion in accepted transactions", "statement": "If SignedTransaction::validate accepts a transaction, the type embedded in its id is the transaction's own type; hence in any MemStore filled only with accepted transactions, every type scan yields only that type and conversions of scanned transactions never panic.", "quantifier": "every transaction, store and history", "why_tests_cant": "Every history.", "anchors": ["cryptoballot/src/transaction.rs: SignedTransaction::validate, From<SignedTransaction>", "cryptoballot/src/store.rs: get_multiple"]}
{"id": "C10", "title": "Accepted means signed", "statement": "If a transaction that names a signer key is accepted, its signature verifies under exactly that key over exactly the serialization of the transaction; a Decryption needs no signature.", "quantifier": "every transaction, signature and store", "why_tests_cant": "All transactions of all ten types.", "anchors": ["cryptoballot/src/transaction.rs: Signed::verify_signature, Signed::validate, SignedTransaction::validate"]}
{"id": "C11", "title": "Sign then verify", "statement": "Signed::sign succeeds exactly when the secret key belongs to the public key the transaction names (or it names none), and what it returns verifies.", "quantifier": "every secret key and transaction", "why_tests_cant": "All keys/transactions.", "anchors": ["cryptoballot/src/transaction.rs: Signed::sign, Signed::verify_signature"]}
{"id": "C12", "title": "Election acceptance", "statement": "An accepted election has a well-formed id, trustee threshold at most the number of trustees and authenticator threshold at most the number of authenticators; and every correctly signed well-formed election meeting these is accepted.", "quantifier": "every election transaction", "why_tests_cant": "u8 casts and boundaries over all sizes.", "anchors": ["cryptoballot/src/election.rs: ElectionTransaction::validate_tx"]}
{"id": "C13", "title": "Trustee steps only by listed trustees", "statement": "An accepted commitment, share, public key, mix or partial decryption is signed by a key that the referenced election lists as a trustee with exactly the index the transaction claims.", "quantifier": "every transaction and store", "why_tests_cant": "All elections, including duplicate and odd trustee lists.", "anchors": ["cryptoballot/src/keygen.rs: validate_tx", "cryptoballot/src/mix.rs: validate_tx", "cryptoballot/src/decryption.rs: validate_tx"]}
{"id": "C14", "title": "Key shares cover all trustees", "statement": "An accepted key-share transaction carries as many shares as there are trustees and one for each trustee index; when trustee indexes are distinct it carries a share for exactly the trustee indexes.", "quantifier": "every share transaction and store", "why_tests_cant": "All sizes.", "anchors": ["cryptoballot/src/keygen.rs: KeyGenShareTransaction::validate_tx"]}
{"id": "C15", "title": "Encryption key is unanimous", "statement": "An accepted encryption-key transaction is signed by the authority of the election it names and equals the key published by every trustee of that election, with exactly one published key per trustee slot.", "quantifier": "every transaction and store", "why_tests_cant": "All trustee sets.", "anchors": ["cryptoballot/src/keygen.rs: EncryptionKeyTransaction::validate_tx"]}
{"id": "C16", "title": "Each election's steps are its own", "statement": "A transaction stored under an election's id space was accepted against that same election: only that election's authority can publish its encryption key or end its voting, only its trustees can fill its keygen slots.", "quantifier": "every history of accepted transactions, every pair of elections", "why_tests_cant": "Cross-election interference needs all histories and adversarial ids.", "anchors": ["cryptoballot/src/voting_end.rs: VotingEndTransaction::validate_tx", "cryptoballot/src/keygen.rs: KeyGenCommitmentTransaction::validate_tx, KeyGenShareTransaction::validate_tx, KeyGenPublicKeyTransaction::validate_tx, EncryptionKeyTransaction::validate_tx"]}
{"id": "C17", "title": "No votes after voting ends", "statement": "Once a voting-end transaction of an election is stored, no vote of that election is accepted, and along every further history of accepted transactions the set of stored votes of that election never changes.", "quantifier": "every history and every continuation", "why_tests_cant": "All continuations.", "anchors": ["cryptoballot/src/vote.rs: VoteTransaction::validate_tx", "cryptoballot/src/store.rs: MemStore::set"]}
{"id": "C18", "title": "No votes before the encryption key", "statement": "A vote is accepted only if the election exists, its encryption key is already stored and its id is built from the election and the voter's anonymous key.", "quantifier": "every vote and store", "why_tests_cant": "All stores.", "anchors": ["cryptoballot/src/vote.rs: VoteTransaction::validate_tx, build_id"]}
{"id": "C19", "title": "Votes stay on their ballot", "statement": "An accepted vote names a ballot of the election and votes only in contests of that ballot.", "quantifier": "every vote and store", "why_tests_cant": "All ballots/contests.", "anchors": ["cryptoballot/src/vote.rs: VoteTransaction::validate_tx", "cryptoballot/src/election.rs: get_ballot"]}
{"id": "C20", "title": "Voters are authenticated by a quorum", "statement": "An accepted vote carries valid signatures from at least authenticators_threshold distinct authenticators of the election for its (election, ballot, anonymous key).", "quantifier": "every vote and store", "why_tests_cant": "All votes incl. adversarial.", "anchors": ["cryptoballot/src/vote.rs: VoteTransaction::validate_tx", "cryptoballot/src/authn.rs: Authenticator::verify"]}
{"id": "C21", "title": "Anonymous keys do not collide in 80 bits", "statement": "No two votes stored for one election share the first 10 bytes of the anonymous key.", "quantifier": "every history of accepted votes", "why_tests_cant": "Adversarial keys; every history.", "anchors": ["cryptoballot/src/vote.rs: VoteTransaction::validate_tx (collision check)"]}
{"id": "C22", "title": "At most one selection set per contest per vote", "statement": "An accepted vote contains at most one encrypted vote for each contest.", "quantifier": "every vote", "why_tests_cant": "Adversarial votes.", "anchors": ["cryptoballot/src/vote.rs: VoteTransaction::validate_tx"]}
{"id": "C23", "title": "First mix covers exactly all votes", "statement": "An accepted first mix lists exactly the ids of all stored votes of the election, each once, in ascending order, and its shuffle proof verifies for exactly their ciphertexts of that contest under the stored encryption key.", "quantifier": "every mix and store", "why_tests_cant": "All vote sets.", "anchors": ["cryptoballot/src/mix.rs: MixTransaction::validate_tx, verify_mix"]}
{"id": "C24", "title": "Mix chain integrity", "statement": "In any ledger of accepted transactions every mix is the end of a chain of mixes of the same election, contest, batch and vote list with mix indexes 0,1,..,k, each by a different trustee (trustee index = mix index + 1), starting at a first mix; all have as many outputs as votes listed.", "quantifier": "every history of accepted transactions", "why_tests_cant": "Induction over chains and histories.", "anchors": ["cryptoballot/src/mix.rs: MixTransaction::validate_tx"]}
{"id": "C25", "title": "Mixing preserves the votes", "statement": "If shuffle proofs are sound, then the plaintexts of any accepted mix's outputs are a permutation of the plaintexts of the contest's encrypted votes that were stored when the first mix was accepted.", "quantifier": "every history, every chain length", "why_tests_cant": "Induction over the chain.", "anchors": ["cryptoballot/src/mix.rs: validate_tx, verify_mix, generate_pedersen_seed"]}
{"id": "C26", "title": "Mix only after voting ended", "statement": "A mix is accepted only after voting has ended.", "quantifier": "every history", "why_tests_cant": "All histories/orders.", "anchors": ["cryptoballot/src/mix.rs: MixTransaction::validate_tx"]}
{"id": "C27", "title": "Partial decryption only after voting ended", "statement": "A partial decryption is accepted only if the election's voting-end slot is filled, and its id is built from its own fields.", "quantifier": "every partial decryption, store", "why_tests_cant": "All stores.", "anchors": ["cryptoballot/src/decryption.rs: PartialDecryptionTransaction::validate_tx"]}
{"id": "C28", "title": "Partial decryption is proven", "statement": "An accepted partial decryption has exactly one share per ciphertext of the upstream item it names, each verifying against the trustee's stored public-key proof and that ciphertext; without mixnet the upstream is a stored vote at index 0, with mixnet it is an in-range position of a stored mix of that contest.", "quantifier": "every partial decryption and store", "why_tests_cant": "All positions, u16 casts.", "anchors": ["cryptoballot/src/decryption.rs: validate_tx, encrypted_vote_from_upstream_tx"]}
{"id": "C29", "title": "Only fully mixed votes are decrypted", "statement": "With a mixnet, decryptions are accepted only for outputs of the last mix (mix index = trustee threshold - 1) and only for transactions of the same election.", "quantifier": "every history", "why_tests_cant": "Adversarial trustees.", "anchors": ["cryptoballot/src/decryption.rs: validate_tx, encrypted_vote_from_upstream_tx"]}
{"id": "C30", "title": "Decryption is the threshold decryption of stored partials", "statement": "An accepted decryption has a well-formed id, names only trustees of the election whose partial decryptions of this item are stored, at least trustees_threshold of them, and its selections are exactly what threshold decryption of those partials yields, one per ciphertext.", "quantifier": "every decryption and store", "why_tests_cant": "All stores.", "anchors": ["cryptoballot/src/decryption.rs: DecryptionTransaction::validate_tx, decrypt_vote"]}
{"id": "C31", "title": "A quorum of distinct trustees stands behind each decryption", "statement": "At least trustees_threshold pairwise distinct trustees contributed stored partial decryptions to an accepted decryption, so with threshold >= 1 voting had ended before it.", "quantifier": "every history", "why_tests_cant": "Adversarial trustee lists; histories.", "anchors": ["cryptoballot/src/decryption.rs: DecryptionTransaction::validate_tx"]}
{"id": "C32", "title": "Decryption result is unique", "statement": "Any two decryptions accepted against the same store for the same item and the same trustee set have the same selections.", "quantifier": "every pair of accepted decryptions", "why_tests_cant": "All pairs.", "anchors": ["cryptoballot/src/decryption.rs: validate_tx, decrypt_vote"]}
{"id": "C33", "title": "Validation never crashes", "statement": "Validating any transaction against any MemStore filled by accepted transactions returns Ok or Err, never a panic.", "quantifier": "every history and every incoming transaction", "why_tests_cant": "Panics hide in rare inputs.", "anchors": ["cryptoballot/src/transaction.rs: SignedTransaction::validate", "cryptoballot/src/mix.rs: validate_tx", "cryptoballot/src/decryption.rs: decrypt_vote"]}
{"id": "C34", "title": "Elections are isolated", "statement": "The verdict on a transaction depends only on stored transactions of the elections it refers to; adding or changing transactions of other elections never changes it.", "quantifier": "every transaction and pair of stores agreeing on the relevant elections", "why_tests_cant": "Quantifies over pairs of stores.", "anchors": ["cryptoballot/src/transaction.rs: SignedTransaction::validate", "cryptoballot/src/keygen.rs: validate_tx", "cryptoballot/src/vote.rs: VoteTransaction::validate_tx", "cryptoballot/src/voting_end.rs: VotingEndTransaction::validate_tx", "cryptoballot/src/mix.rs: MixTransaction::validate_tx", "cryptoballot/src/decryption.rs: PartialDecryptionTransaction::validate_tx, DecryptionTransaction::validate_tx"]}
{"id": "C35", "title": "Accepted ledgers are append-only (Exonum)", "statement": "verify_and_store never changes or removes an entry: after any sequence of submissions every stored entry is still stored unchanged, failed submissions change nothing, and a resubmitted id is refused.", "quantifier": "every sequence of submissions", "why_tests_cant": "All histories.", "anchors": ["cryptoballot_exonum/src/lib.rs: verify_and_store"]}
{"id": "C36", "title": "Exonum entries are filed under their own id", "statement": "Every entry in the Exonum store is filed under the id of the transaction it contains, so one signed transaction can be stored at most once.", "quantifier": "every sequence of submissions", "why_tests_cant": "Adversarial envelopes.", "anchors": ["cryptoballot_exonum/src/lib.rs: verify_and_store, Transaction"]}
{"id": "C37", "title": "Exonum envelope round-trip", "statement": "Wrapping a signed transaction into an Exonum Transaction and back gives the same transaction, with envelope id and key equal to the transaction's.", "quantifier": "every signed transaction", "why_tests_cant": "All transactions.", "anchors": ["cryptoballot_exonum/src/lib.rs: From<SignedTransaction> for Transaction, TryInto<SignedTransaction>"]}
{"id": "C38", "title": "Exonum store refines the map store", "statement": "For entries filed under their own ids, Exonum get_transaction and range agree with a MemStore holding the same transactions.", "quantifier": "every store content, id and range", "why_tests_cant": "Refinement over all contents.", "anchors": ["cryptoballot_exonum/src/lib.rs: TransactionSchema as Store"]}
{"id": "C39", "title": "Prefix query is exact", "statement": "The transactions endpoint with a prefix returns exactly the stored transactions whose id text starts with that prefix, in ascending order; without prefix it returns all.", "quantifier": "every store content and prefix text", "why_tests_cant": "All prefixes and contents.", "anchors": ["cryptoballot_server/src/api.rs: CryptoballotApi::get_all"]}
{"id": "C40", "title": "End-to-end verification replays the ledger", "statement": "If the e2e command reports success, then each transaction of the election was accepted against the ones before it, and the resulting store contains exactly the fetched transactions.", "quantifier": "every transaction list", "why_tests_cant": "All lists.", "anchors": ["cryptoballot_cli/src/command_e2e.rs: command_e2e"]}
{"id": "C41", "title": "Verified elections are fully counted", "statement": "If the e2e command reports success, every stored vote has been decrypted and counted exactly once per contest.", "quantifier": "every transaction list", "why_tests_cant": "Adversarial lists.", "anchors": ["cryptoballot_cli/src/command_e2e.rs: command_e2e"]}
{"id": "C42", "title": "Honest keygen steps are accepted", "statement": "Whenever a trustee node reacts to an election, commitments or shares, the commitment/share/public-key transaction it generates passes validation against the same store.", "quantifier": "every store, election and node key", "why_tests_cant": "All stores.", "anchors": ["cryptoballot_server/src/tasks.rs: process_election, process_keygen_commitment, process_keygen_share, process_keygen_public_key"]}
{"id": "C43", "title": "Server reacts exactly when the step is complete", "statement": "A trustee node emits its key share exactly when all commitments are in, its public key exactly when all shares are in; the authority emits the encryption key exactly when all public keys are in; nodes that are not trustees/authority emit nothing.", "quantifier": "every store and node key", "why_tests_cant": "All stores.", "anchors": ["cryptoballot_server/src/tasks.rs: generate_transactions and process_*"]}
{"id": "C44", "title": "Server-generated mixes are accepted", "statement": "The mix transaction a trustee node generates in reaction to voting end or to the previous mix passes validation.", "quantifier": "every store, election, node", "why_tests_cant": "All elections incl. threshold > 1 and multi-ballot.", "anchors": ["cryptoballot_server/src/tasks.rs: process_voting_end, process_mix"]}
{"id": "C45", "title": "Every item is partially decrypted", "statement": "In reaction to voting end (no mixnet) or the last mix, a trustee node emits one partial decryption per encrypted vote / mix output, with pairwise distinct ids, in order.", "quantifier": "every store and mix size", "why_tests_cant": "Sizes beyond u16.", "anchors": ["cryptoballot_server/src/tasks.rs: produce_partials"]}
{"id": "C46", "title": "Server-generated decryptions are accepted", "statement": "When a node emits a decryption in reaction to a partial decryption, that decryption passes validation against the same store.", "quantifier": "every store and node", "why_tests_cant": "All stores.", "anchors": ["cryptoballot_server/src/tasks.rs: process_partial_decryption"]}
{"id": "C47", "title": "Serialization round-trip", "statement": "Serializing any signed transaction to bytes and deserializing gives the same transaction (up to the two trustee fields that are deliberately not serialized).", "quantifier": "every signed transaction", "why_tests_cant": "Infinite value space.", "anchors": ["cryptoballot/src/transaction.rs: SignedTransaction::as_bytes, from_bytes"]}
{"id": "C48", "title": "Signatures bind content and type", "statement": "Two transactions with the same signing bytes are the same transaction (up to the two unserialized trustee fields); transactions of different types never share signing bytes.", "quantifier": "every pair of transactions", "why_tests_cant": "Injectivity.", "anchors": ["cryptoballot/src/transaction.rs: CryptoBallotTransaction::as_bytes"]}
{"id": "C49", "title": "Selection encoding round-trip", "statement": "Encoding a selection for encryption and decoding the decrypted bytes gives back the same selection.", "quantifier": "every selection", "why_tests_cant": "All strings, scores.", "anchors": ["cryptoballot/src/ballot.rs: Selection (prost)", "cryptoballot/src/vote.rs: encrypt_vote", "cryptoballot/src/decryption.rs: decrypt_vote"]}
{"id": "C50", "title": "Encrypted share round-trip", "statement": "A key share encrypted for a recipient decrypts to the same share for that recipient, and its hex form round-trips; decrypting arbitrary bytes never crashes.", "quantifier": "every share, key, nonce and byte string", "why_tests_cant": "All inputs.", "anchors": ["cryptoballot/src/trustee.rs: EncryptedShare::new, decrypt, from_hex, generate_shares, decrypt_shares"]}
{"id": "C51", "title": "Blind authentication works", "statement": "For every voter package, authenticate(blind(package)) unblinded verifies for that election, ballot and key; verification fails for ballots the authenticator has no key for.", "quantifier": "every package and RSA key", "why_tests_cant": "All keys.", "anchors": ["cryptoballot/src/authn.rs: AuthPackage::blind, Authenticator::authenticate, Authentication::unblind, Authenticator::verify"]}
{"id": "C52", "title": "Plurality tally counts each selection", "statement": "For a plurality contest the total of each candidate is the number of selections naming it, independent of ballot order; candidates nobody selected do not appear; num_votes is the number of ballots.", "quantifier": "every list of ballots", "why_tests_cant": "All lists/permutations.", "anchors": ["cryptoballot/src/tally.rs: TallyResult::tally"]}
{"id": "C53", "title": "One ballot, one plurality vote", "statement": "In a plurality tally a ballot contributes at most one vote.", "quantifier": "every list of ballots", "why_tests_cant": "Adversarial ballots.", "anchors": ["cryptoballot/src/tally.rs: TallyResult::tally"]}
{"id": "C54", "title": "Tallying never crashes", "statement": "TallyResult::tally returns a result for every contest type and list of ballots. (False: Schulze (ratio) and Dowdall always panic, and a repeated candidate does in ranked contests. Proved: exactly when it returns.)", "quantifier": "every contest type and ballots", "why_tests_cant": "Panics on rare ballots.", "anchors": ["cryptoballot/src/tally.rs: TallyResult::tally"]}
{"id": "C55", "title": "Sawtooth processor accepts elections flows", "statement": "Under the Sawtooth processor, valid votes are accepted, non-election transactions are immutable, and a stored election can only be replaced by its own authority.", "quantifier": "every state and transaction", "why_tests_cant": "All states.", "anchors": ["cryptoballot_sawtooth_tp/src/handler.rs: apply, validate_transaction, CbState"]}
{"id": "C56", "title": "Any quorum decrypts the same vote", "statement": "With correctly generated threshold keys, every set of at least threshold trustees decrypts a ciphertext to the encrypted plaintext; hence all quorums agree.", "quantifier": "every polynomial sharing, every quorum", "why_tests_cant": "All subsets, all field elements.", "anchors": ["cryptoballot/src/trustee.rs: generator, generate_party, partial_decrypt", "cryptoballot/src/decryption.rs: decrypt_vote"]}
{"id": "C57", "title": "Decoding untrusted bytes never crashes", "statement": "SignedTransaction::from_bytes returns a transaction or an error on every byte string; it never panics.", "quantifier": "every byte string", "why_tests_cant": "All byte strings an attacker may submit.", "anchors": ["cryptoballot/src/transaction.rs: SignedTransaction::from_bytes, Identifier::deserialize, Identifier::from_str"]}
{"id": "C58", "title": "Nobody can block mixing on the Exonum ledger", "statement": "On the Exonum ledger, whatever transactions are submitted by anybody, an election's first mix that is valid for the stored votes remains submittable.", "quantifier": "every ledger history", "why_tests_cant": "Adversarial histories.", "anchors": ["cryptoballot_exonum/src/lib.rs: Schema, verify_and_store", "cryptoballot/src/mix.rs: validate_tx"]}
{"id": "C59", "title": "An honest ledger passes end-to-end verification", "statement": "If every transaction of an election was accepted by the ledger, then the e2e command, which validates the same transactions in ascending order of id, reports success.", "quantifier": "every ledger history", "why_tests_cant": "All interleavings of accepted transactions.", "anchors": ["cryptoballot_cli/src/command_e2e.rs: command_e2e", "cryptoballot/src/transaction.rs: SignedTransaction::validate"]}
{"id": "C60", "title": "The printed tally is exact", "statement": "For an election that was verified, printing the tally does not crash and reports for each candidate the number of decrypted votes whose first selection names it.", "quantifier": "every verified transaction list", "why_tests_cant": "All lists.", "anchors": ["cryptoballot_cli/src/command_e2e.rs: command_e2e"]}
{"id": "C61", "title": "Score and approval totals", "statement": "For a score contest the total of each candidate is the sum of the scores given to it, for an approval contest the number of ballots entries naming it; only named candidates are listed, each once.", "quantifier": "every list of ballots", "why_tests_cant": "All lists.", "anchors": ["cryptoballot/src/tally.rs: TallyResult::tally"]}
{"id": "C62", "title": "What a node receives it can store and read back", "statement": "Whatever bytes are accepted as a signed transaction, serializing the transaction again gives bytes that are read back as the same transaction: same id, same type, same signed bytes, same verdict against every store. (Nodes store their own serialization, not the received bytes.)", "quantifier": "every byte string that deserializes", "why_tests_cant": "Received bytes may be any of infinitely many non-canonical encodings: other field orders, extra fields, other integer widths.", "anchors": ["cryptoballot/src/transaction.rs: SignedTransaction::from_bytes, SignedTransaction::as_bytes", "cryptoballot_sawtooth_tp/src/handler.rs: apply", "cryptoballot_exonum/src/lib.rs: verify_and_store"]}
{"id": "C63", "title": "What the command line client produces is accepted", "statement": "`election generate` always produces an election that every ledger accepts, owned by the key that signed it. `voting_end generate` for a named election produces a transaction that a ledger accepts exactly if it holds that election and the key is its authority's. `vote generate` for a named election produces the user's vote in that election, encrypted to that election's key, and a ledger accepts it exactly while voting is open (and the ballot exists and the voter's tested slot is free).", "quantifier": "every key, random id, randomness, choice text, every text naming an election, every store/ledger", "why_tests_cant": "Acceptance depends on the whole ledger, including entries filed by strangers; the commands are used with arbitrary keys and elections.", "anchors": ["cryptoballot_cli/src/command_election.rs", "cryptoballot_cli/src/command_vote.rs", "cryptoballot_cli/src/command_voting_end.rs", "cryptoballot/src/election.rs: ElectionTransaction::validate_tx", "cryptoballot/src/vote.rs: VoteTransaction::validate_tx", "cryptoballot/src/voting_end.rs: VotingEndTransaction::validate_tx"]}
{"id": "C64", "title": "No transaction crashes a trustee's node", "statement": "When a block is committed, a node reacts to each of its transactions without crashing, whatever anybody has submitted; it submits exactly the computed reactions that are not stored yet.", "quantifier": "every blockchain state, every envelope in a block (accepted or refused), every node key, every randomness", "why_tests_cant": "Blocks contain whatever anybody on the network submits, in any order; a crash needs one bad combination.", "anchors": ["cryptoballot_server/src/service.rs: after_commit", "cryptoballot_server/src/tasks.rs: generate_transactions"]}
{"id": "C65", "title": "A network of nodes sets every announced election up", "statement": "When every trustee of an accepted election and its authority run a node, then however submissions are delayed and reordered, however late and often nodes react, on whatever prefix of the ledger they have seen, and whatever else anyone submits (other elections, votes, garbage), once nothing of the election is on its way and all nodes have reacted, every trustee's commitment, shares and public key and the authority's encryption key are on the ledger, the public keys agree with it, and the key does not depend on the schedule. From every state on the way, deliveries and reactions alone can complete the set-up, and no node's reaction to a set-up transaction fails. Without some trustee's node no encryption key is ever accepted.", "quantifier": "all schedules (lists of submissions, deliveries and reactions, of any length), all elections with distinct trustees and keys, all views of the ledger, all primitives satisfying the laws of signatures, key exchange, authenticated encryption and threshold key generation", "why_tests_cant": "the claim ranges over all interleavings of asynchronous nodes and deliveries; tests run one schedule", "anchors": ["cryptoballot_server/src/service.rs: after_commit", "cryptoballot_server/src/tasks.rs: generate_transactions, process_election, process_keygen_commitment, process_keygen_share, process_keygen_public_key", "cryptoballot_exonum/src/lib.rs: verify_and_store"]}
{"id": "C66", "title": "Elections without mixnet run by nodes end with every honest vote decrypted", "statement": "In an election without mixnet whose trustees run nodes, however submissions are delayed and reordered and whatever votes anyone casts: once voting has ended, a quorum of the trustees' nodes has reacted to it, some trustee's node has reacted to the resulting partial decryptions, and nothing of the election is on its way, every encrypted vote that a voter made with the client for the election's key has a decryption on the ledger, and it is exactly what that voter selected.  From every state in which voting has ended, deliveries and reactions of a quorum of nodes alone reach that.", "quantifier": "all schedules (lists of submissions, deliveries and reactions, of any length), all elections without mixnet with distinct trustees and keys, all sets of accepted votes, all quorums, all primitives satisfying the laws of signatures, key exchange, authenticated encryption and threshold decryption", "why_tests_cant": "the claim ranges over all interleavings of asynchronous nodes, deliveries and other people's submissions; tests run one schedule with all trustees", "anchors": ["cryptoballot_server/src/service.rs: after_commit", "cryptoballot_server/src/tasks.rs: process_voting_end, process_partial_decryption, produce_partials", "cryptoballot/src/decryption.rs: PartialDecryptionTransaction::validate_tx, DecryptionTransaction::validate_tx, decrypt_vote"]}
{"id": "C67", "title": "Trustees find their own record in the election", "statement": "Looking a trustee up in an election by its public key returns that trustee's index with the election's number of trustees and threshold; it fails exactly for keys of nobody's (or a trustee with index 0).  The library's lookup and the node's lookup agree.  A freshly created trustee carries the public half of the returned secret key and the given numbers.", "quantifier": "every election, every key", "why_tests_cant": "All trustee lists, including ones with shared keys.", "anchors": ["cryptoballot/src/trustee.rs: Trustee::from_election_tx, Trustee::new", "cryptoballot_server/src/tasks.rs: trustee_from_election", "cryptoballot/src/election.rs: get_full_trustees"]}
{"id": "C68", "title": "Elections with mixnet run by nodes end with all honest votes mixed and decrypted", "statement": "In an election with mixnet whose trustees run nodes, however submissions are delayed and reordered and whatever votes anyone casts: the stored decryptions of a contest are what the voters selected, none more often than it was cast.  Once voting has ended, trustee 1's node has mixed, a trustee's node has decrypted its share of the mix and a trustee's node has combined the shares, and nothing of the election is on its way, they are all the voters' selections, each once, in some order.  From every state in which voting has ended, deliveries and reactions of nodes alone reach that.", "quantifier": "all schedules (lists of submissions, deliveries and reactions, of any length), all elections with mixnet with distinct trustees and keys, all sets of accepted votes up to 65535, all primitives satisfying the laws of signatures, key exchange, authenticated encryption, shuffling and threshold decryption", "why_tests_cant": "the claim ranges over all interleavings of asynchronous nodes, deliveries and other people's submissions, all elections and all numbers of votes; tests run one schedule", "anchors": ["cryptoballot_server/src/service.rs: after_commit", "cryptoballot_server/src/tasks.rs: process_voting_end, process_mix, process_partial_decryption, produce_partials", "cryptoballot/src/mix.rs: MixTransaction::validate_tx", "cryptoballot/src/decryption.rs: PartialDecryptionTransaction::validate_tx, DecryptionTransaction::validate_tx"]}
{"id": "C69", "title": "Elections held by nodes verify end to end, and the client's elections are counted right", "statement": "Whenever an election's trustees and authority run nodes and voters use different keys, `cryptoballot e2e` reports success on what the ledger holds of the election, at every moment of every schedule.  For an election made by `cryptoballot election generate` with votes made by `cryptoballot vote generate`, from every state in which voting has ended, deliveries and reactions of the authority's node alone reach a state in which the e2e command succeeds and prints exactly the tally of the texts the voters gave.", "quantifier": "all schedules (lists of submissions, deliveries and reactions, of any length, with any other elections and garbage around), all elections, all numbers of voters up to 65535 and all their texts, all primitives satisfying the laws of signatures, key exchange, authenticated encryption, shuffling and threshold decryption", "why_tests_cant": "the claim ties together the client, all nodes' reactions, the ledger's order and the verifier's different order (ascending ids) for all interleavings and all ballots; an end-to-end test runs one election in one order", "anchors": ["cryptoballot_cli/src/command_e2e.rs: command_e2e", "cryptoballot_cli/src/command_election.rs: command_election_generate", "cryptoballot_cli/src/command_vote.rs: command_vote_generate", "cryptoballot_server/src/service.rs: after_commit", "cryptoballot_server/src/tasks.rs: generate_transactions"]}
{"id": "C70", "title": "Elections held by nodes on the blockchain, block by block, come out right", "statement": "On the Exonum blockchain, where nodes react to each block one block later with their view of the service's data, whatever enters whatever block in whatever order and whenever nodes run their hook: as long as what is submitted carries its own id, everything that holds of elections held by nodes holds of what is filed. When nothing of the election is left to be delivered or processed, and what got lost of it has been made up for, the election is set up, every honest vote is decrypted right, and the client's elections are counted right; what the REST API returns for the election always verifies end to end. A lost submission is not made up for until someone posts the transaction that caused it again; posting a filed transaction again changes nothing that is filed and makes nodes react again.", "quantifier": "all schedules (lists of submissions, blocks of any content and order, losses, and runs of after_commit by any node at any height, of any length, with panics), all elections, votes and trustees, all primitives satisfying the laws of signatures, key exchange, authenticated encryption, shuffling and threshold decryption", "why_tests_cant": "blocks, delays, losses and the nodes' lag can interleave in unboundedly many ways; an integration test runs one node with one schedule", "anchors": ["cryptoballot_server/src/service.rs: after_commit", "cryptoballot_server/src/tasks.rs: generate_transactions", "cryptoballot_exonum/src/lib.rs: verify_and_store", "cryptoballot_server/src/api.rs"]}
{"id": "C71", "title": "Elections held by nodes on the blockchain complete", "statement": "When nobody but the nodes submits any more, the nodes' reactions to each other's transactions come to an end: in every endless schedule in which nothing gets lost, submissions are committed at some time and nodes complete their hook for every block at some time, there is a time from which on nothing is submitted or filed any more. From some time on, every election filed is set up, and every election whose voting has ended has all its honest votes decrypted right; `cryptoballot e2e` on an election made with the command line client then reports success and prints the tally of what the voters entered.", "quantifier": "all endless schedules (functions from the natural numbers to submissions, blocks and hooks) that are fair in the stated sense, all prior submissions by anyone, all elections, votes and trustees, all primitives (coming to rest) or all that satisfy the laws of signatures, key exchange, authenticated encryption, shuffling and threshold decryption (completing)", "why_tests_cant": "a liveness claim about infinite executions; tests see finite prefixes of a few of them", "anchors": ["cryptoballot_server/src/service.rs: after_commit", "cryptoballot_server/src/tasks.rs: generate_transactions", "cryptoballot_cli/src/command_e2e.rs: command_e2e"]}
{"id": "C72", "title": "A verified result is made of votes cast", "statement": "If end-to-end verification of an election's transactions succeeds, whoever wrote them, and shuffle proofs and decryption shares are sound, then every decryption says what the item it names decrypts to under the election's key; each counted ballot comes from a ballot that was cast, no cast ballot is counted twice, no voter is counted twice in a contest, and the number printed beside a candidate is at most the number of cast ballots that name them first.", "quantifier": "all lists of transactions, including adversarial ones, of one election that verify; all contests, decryptions, candidates", "why_tests_cant": "It is a claim about every transcript an adversary could publish, not about those the software produces.", "anchors": ["cryptoballot_cli/src/command_e2e.rs: command_e2e", "cryptoballot/src/decryption.rs: PartialDecryptionTransaction::validate_tx, DecryptionTransaction::validate_tx, decrypt_vote", "cryptoballot/src/mix.rs: MixTransaction::validate_tx"]}
{"id": "C73", "title": "A contest that a voter has left out is never counted", "statement": "In an election with mixnet, a contest whose encrypted votes are not as many as the votes cast when voting ends (for instance because one voter left it out) and that has not been mixed by then can never be mixed, and nothing of the election is ever decrypted for it, whatever trustees or anybody else submit.", "quantifier": "all append-only histories after the end of voting; all elections with mixnet, contests and sets of votes", "why_tests_cant": "It denies that any continuation of any history leads to a result.", "anchors": ["cryptoballot/src/mix.rs: MixTransaction::validate_tx", "cryptoballot/src/decryption.rs: validate_tx"]}
{"id": "C74", "title": "Transactions survive JSON", "statement": "Printing a signed transaction as JSON, compact or indented, and reading the text gives the same transaction; a list comes back in the same order. So a file printed by the command line and posted posts exactly the transactions printed, what a client reads from a node over REST is what the node's ledger holds, and `cryptoballot e2e` verifies what the ledger holds.", "quantifier": "all transactions of all ten kinds with any content, all lists of them, both layouts, all ledgers, ids and prefixes", "why_tests_cant": "It ranges over all contents, strings with any characters and any nesting of application-specific properties.", "anchors": ["cryptoballot/src/transaction.rs: SignedTransaction (Serialize, Deserialize)", "cryptoballot/src/serde_hex.rs", "cryptoballot_cli/src/rest.rs: get_transaction, get_transactions_by_prefix, post_transaction", "cryptoballot_cli/src/command_post_transaction.rs: command_post_transaction", "cryptoballot_cli/src/command_e2e.rs: command_e2e", "cryptoballot_server/src/api.rs: get_tx, get_all"]}
{"id": "C75", "title": "What is acceptable stays acceptable", "statement": "A transaction that a ledger would accept is still accepted after any other transactions have been accepted, except that: a vote is refused once voting has ended, or once a vote is stored whose key starts with the same 10 bytes and goes on with 6 zeros; a first mix is refused once another vote is stored; an encryption key is refused once another public key of the election is stored; a decryption may be refused once another public key of the election is stored.", "quantifier": "all stores that obey the storage contract, all transactions of all kinds, everything accepted in between", "why_tests_cant": "It ranges over all pairs of a ledger and a later one.", "anchors": ["cryptoballot/src/transaction.rs: SignedTransaction::validate", "cryptoballot/src/vote.rs: validate_tx", "cryptoballot/src/mix.rs: validate_tx", "cryptoballot/src/keygen.rs: validate_tx", "cryptoballot/src/decryption.rs: validate_tx"]}
{"id": "C76", "title": "The order of votes does not decide who gets in", "statement": "Whatever the ledger, if some votes are submitted to a node one after the other, those that are filed are the ones that would have been accepted at the beginning: the outcome does not depend on their order or on repetitions.", "quantifier": "all envelopes delivered before, all lists of votes, all orders, all ids", "why_tests_cant": "It ranges over all orders of arrival of any number of votes.", "anchors": ["cryptoballot_exonum/src/lib.rs: verify_and_store", "cryptoballot/src/vote.rs: VoteTransaction::validate_tx"]}
{"id": "C77", "title": "A quorum of trustees is enough, whatever the others do", "statement": "Whether a decryption is accepted depends on what the trustees that it lists have posted; nothing that the other trustees post can make it unacceptable. Once enough trustees have partially decrypted an item, trustees' nodes decrypt it, whatever the other trustees post.", "quantifier": "all ledgers, all later ledgers, all decryptions, all nodes and everything other trustees post", "why_tests_cant": "It ranges over everything a misbehaving trustee may post, at any time.", "anchors": ["cryptoballot/src/decryption.rs: decrypt_vote, DecryptionTransaction::validate_tx", "cryptoballot/src/keygen.rs: KeyGenPublicKeyTransaction::validate_tx", "cryptoballot_server/src/tasks.rs: process_partial_decryption"]}
{"id": "C78", "title": "Results are final", "statement": "Once voting has ended, everything cast has been decrypted and the election verifies, no later transaction changes the tally: whoever verifies the election later gets the same count for every selection of every contest.", "quantifier": "all ledgers of nodes at which everything has been decrypted, everything accepted later, all selections and contests", "why_tests_cant": "It ranges over everything that authorities, trustees and strangers may post after the results are known.", "anchors": ["cryptoballot_cli/src/command_e2e.rs: command_e2e", "cryptoballot_exonum/src/lib.rs: verify_and_store", "cryptoballot/src/decryption.rs: DecryptionTransaction::validate_tx"]}
{"id": "C79", "title": "Ballot independence", "statement": "Nobody can cast a vote with the same content as another voter's vote without knowing its content: two accepted votes by different voters never share ciphertexts, unless their voters agreed.", "quantifier": "all stores, all accepted votes, all keys", "why_tests_cant": "It ranges over every vote on every ledger and every key that a copy may be cast under.", "anchors": ["cryptoballot/src/vote.rs: VoteTransaction::validate_tx"]}
{"id": "C80", "title": "The command line's outputs can be used as its inputs", "statement": "A secret key printed by `keygen` or by a development node is accepted by every command and stands for the printed public key. A malformed key stops every command before it does anything. What `election generate`, `vote generate` and `voting_end generate` print is what they post with `--post`, and posting the printed text later sends the same. What `get` prints is what the node holds, and can be posted elsewhere. A generated trustee's file holds the key of the printed trustee; a generated authenticator's secret belongs to the key it publishes. (What cannot be used: two generated trustees in one threshold, a generated authenticator in a generated election.)", "quantifier": "all keys, all randomness, all nodes and their ledgers, all transactions", "why_tests_cant": "It ranges over all keys, ledgers and transactions that pass through files and between commands.", "anchors": ["cryptoballot_cli/src/main.rs: main, command_get_transaction", "cryptoballot_cli/src/command_keygen.rs: command_keygen", "cryptoballot_cli/src/command_trustee.rs: command_trustee_generate", "cryptoballot_cli/src/command_authn.rs: command_authn_generate", "cryptoballot_cli/src/command_post_transaction.rs: command_post_transaction", "cryptoballot_server/src/main.rs: main"]}
{"id": "C81", "title": "Which bytes are a transaction", "statement": "Bytes are read as a transaction exactly if they are an encoding by RFC 7049 of an item that is one, nested at most 127 deep. Encodings are unambiguous: no bytes stand for two items, and no encoding begins with another. Every encoding of a transaction, not only the one the program writes, reads as that transaction, and delivering rewritten submissions to the blockchain changes neither which ids are stored nor what is read from it. (The bytes are not bound by the signature: everybody can rewrite them, and add content under unused names.)", "quantifier": "all byte strings, all items, all transactions, all histories of submissions", "why_tests_cant": "It ranges over every byte string a peer can send and every way of encoding every transaction.", "anchors": ["cryptoballot/src/transaction.rs: SignedTransaction::from_bytes, SignedTransaction::as_bytes, SignedTransaction::verify_signature", "cryptoballot_exonum/src/lib.rs: verify_and_store"]}
{"id": "C82", "title": "Unsigned transactions", "statement": "An unsigned transaction is read back from its serialization as it was, whatever its type. A signed transaction has the id, type and verdict of the unsigned transaction in it, and the unsigned transaction has everything a signed one is made of but public key and signature. No bytes are read both as a signed and as an unsigned transaction. (False in full: unknown fields are ignored, so bytes holding the fields of both are read as both; what programs write as one is never read as the other.)", "quantifier": "all unsigned and signed transactions of all ten types, all bytes", "why_tests_cant": "It ranges over every transaction and every byte string.", "anchors": ["cryptoballot/src/transaction.rs: Transaction, SignedTransaction, Signed, as_bytes, from_bytes"]}
{"id": "C83", "title": "No voter is kept out", "statement": "Whoever fills a ballot of an open election under a fresh key, has the key authenticated by authenticators of the election and signs, has a vote that is accepted. Once the election is open to a voter, nothing that others submit keeps the vote out: when it arrives it is filed, for good, and is read as it was cast; only the election's authority can end that. (False in full: a stranger can end the voting of any election, by an end of voting of their own election that carries its id, or by any acceptable transaction in an envelope labelled so. Proved if the others' envelopes are labelled with their transactions' ids, do not fill the place of the election's end of voting, and are no votes under keys with the same first ten bytes.)", "quantifier": "all ledgers, elections, voters, ballots, authentications, and everything that others submit before, in between and afterwards", "why_tests_cant": "It ranges over everything that anybody may submit between the casting of a vote and its arrival.", "anchors": ["cryptoballot/src/vote.rs: VoteTransaction::new, VoteTransaction::validate_tx", "cryptoballot/src/authn.rs: AuthPackage, Authenticator::authenticate", "cryptoballot_exonum/src/lib.rs: verify_and_store"]}
{"id": "C84", "title": "Borda totals are as documented", "statement": "In the Borda contests the total of each candidate is the sum, over the ballots, of the points that the documentation gives: from the number of candidates and the number that the voter ranks better; equal ranks mean equal preference; the order of the ballots and of the selections on a ballot is irrelevant. (False in full: of equal ranks the selection listed first gets more points; Dowdall contests always panic. Proved for ballots without equal ranks.)", "quantifier": "all ballots, candidates and orders", "why_tests_cant": "It ranges over all ballots and all orders.", "anchors": ["cryptoballot/src/tally.rs: TallyResult::tally", "cryptoballot/src/ballot.rs: ContestType"]}
{"id": "C85", "title": "Head-to-head totals", "statement": "In a Condorcet contest in which every voter ranks every candidate, the total shown for \"a > b\" is the number of voters who rank a strictly before b. (False in full: if names contain \" > \", two pairs can share one text, and one total replaces the other. Proved if no name contains \">\", given that tallystick counts head to head.)", "quantifier": "all ballots and candidates", "why_tests_cant": "It ranges over all ballots and all names, and texts that coincide are rare.", "anchors": ["cryptoballot/src/tally.rs: TallyResult::tally"]}
{"id": "C86", "title": "What the end-to-end command reports", "statement": "Of an election that it has verified, the command prints exactly the selections of the election's decryptions, and as winner the candidate with the most votes. (False in full: of a tie one candidate is printed and nothing said about the others, and contests are counted together. Proved: nobody has more votes than the winner that is printed, and a candidate with more votes than everybody else is printed.)", "quantifier": "all transaction lists that the command verifies, all elections", "why_tests_cant": "It ranges over all ledgers.", "anchors": ["cryptoballot_cli/src/command_e2e.rs: command_e2e"]}
{"id": "C87", "title": "Debug and release nodes hold the same ledger", "statement": "Nodes compiled with and without overflow checks and debug assertions come to the same verdict on every transaction, so that, given the same submissions in the same order, they store the same. (False in full: in an election that lists trustees 0 to 255 the mix by trustee 0 is stored by nodes without overflow checks, while nodes with them panic and refuse it. Proved: the verdicts are the same except that the checking node panics on a mix in an election that lists a trustee of index 0 or after a mix of index 255; Exonum ledgers are the same as long as no submitted election lists a trustee of index 0; Sawtooth ledgers always are.)", "quantifier": "all stores and transactions; all sequences of submissions; both settings of overflow checks and debug assertions on either side", "why_tests_cant": "Tests run one build at a time, on a few histories; agreement must hold for every history.", "anchors": ["cryptoballot/src/mix.rs: MixTransaction::validate_tx", "cryptoballot_exonum/src/lib.rs: verify_and_store", "cryptoballot_sawtooth_tp/src/handler.rs: apply"]}
{"id": "C88", "title": "The end-to-end report is about the election asked for", "statement": "Asked for an election by its id, the end-to-end command reports on the transactions of that election and counts only its votes, whatever else is on the ledger. (False in full: the node is asked for ids with the same first 15 digits and the report is about the first of them, so a stranger's election with a lesser id is reported instead, a stranger's election whose transactions do not replay makes the command fail, and if submissions are mislabelled, trustees can have a vote of another election counted. Proved: if submissions are labelled with their ids and no similar election has a lesser id, whatever is printed is what is printed for the election's own transactions alone; every decryption reported is of a vote or a mix of the election reported on.)", "quantifier": "all ledgers of a node, with any number of other elections, all elections, all flags", "why_tests_cant": "It ranges over everything that strangers may put on the ledger.", "anchors": ["cryptoballot_cli/src/command_e2e.rs: command_e2e", "cryptoballot/src/decryption.rs: encrypted_vote_from_upstream_tx", "cryptoballot_server/src/api.rs: get_all"]}
{"id": "C89", "title": "The printed report cannot be forged by what is voted for", "statement": "What the end-to-end command prints are the votes, totals and winner that it finds, each if it was asked for, and the text can be read in one way only: two reports with the same text show the same votes, totals and winner. (False in full: texts that were voted for are printed as they are, so one vote for a text of two lines is printed as two candidates. Proved: true if the texts contain no line breaks.)", "quantifier": "all transaction lists, all flags, all orders in which the totals are listed", "why_tests_cant": "It ranges over all texts that voters may choose.", "anchors": ["cryptoballot_cli/src/command_e2e.rs: command_e2e"]}
{"id": "C90", "title": "Votes stay sealed while voting is open", "statement": "As long as the authority has not ended the voting of an election, no node sends out a decryption share of any of its votes, and in an election with mixnet nodes never send out shares of votes as they were cast, only of what the trustees have mixed. (False in full: if submissions may be labelled with other ids, anybody can store an election with the same id and trustees but with themselves as the authority and without mixnet, end its voting, and have the nodes of the trustees open all votes of the real election as they were cast. Proved, if submissions are labelled with their ids: before the authority ends voting no shares are sent out, whatever anybody submits, provided that in elections with mixnet the trustees who mix otherwise than by their nodes are fewer than the threshold; and every share ever sent out is of a stored vote after an end of voting signed by the authority, in elections without mixnet, or of a mix at the end of a chain of mixes by as many trustees as the threshold, in elections with mixnet.)", "quantifier": "all elections, all schedules of submissions, blocks, losses and hooks at any number of nodes, everything that anybody may submit", "why_tests_cant": "It ranges over everything that strangers, voters, trustees and the authority may submit, in every order.", "anchors": ["cryptoballot_server/src/tasks.rs: process_voting_end, process_mix, produce_partials", "cryptoballot_server/src/service.rs: after_commit", "cryptoballot_exonum/src/lib.rs: verify_and_store", "cryptoballot/src/voting_end.rs: validate_tx"]}
{"id": "C91", "title": "Shares of a trustee's key are only for the trustees of the election", "statement": "Shares that a node sends out while the key of an election is set up are values of the polynomial of a trustee of the election, made for its threshold, and each is encrypted for an X25519 key that another trustee of the election has signed and had stored for this election. (False in full: a commitment about another election that is filed under this one makes nodes encrypt a share for a stranger; and if submissions may be labelled with other ids, a lookalike of the election with the same id, in which the trustees have other indexes, makes nodes send shares of the same polynomials to the stranger's trustees even while votes are cast. With textbook threshold encryption, as many such shares of every trustee as the threshold suffice to read all votes. Proved: if submissions are labelled with their ids and commitments that are filed under the election are about it, shares are for its trustees only.)", "quantifier": "all elections, all schedules of submissions, blocks and reactions of nodes, all secret keys and randomness", "why_tests_cant": "It is about what every node sends in every history of the ledger, including what strangers submit; tests only see the trustees of one election.", "anchors": ["cryptoballot_server/src/tasks.rs: process_keygen_commitment", "cryptoballot/src/trustee.rs: generator, generate_shares, shared_secret", "cryptoballot/src/keygen.rs: validate_tx", "cryptoballot_exonum/src/lib.rs: verify_and_store"]}
{"id": "C92", "title": "Printed totals are those of the contests", "statement": "For every election that the end-to-end command verifies, each total it prints is the total that the library's tally gives that candidate in a contest of the election, by the contest's type and from the contest's decrypted ballots; where write-ins are not allowed, only candidates of the contest are listed. (False in full: the contest type is ignored and only first selections are counted; what a name got in several contests is added up; names that are no candidates are counted although write-ins are not allowed. Proved: if all decryptions of the election are of one contest and have one selection each, what is printed is the library's plurality tally of that contest.)", "quantifier": "all verified lists of transactions, all contests, contest types and votes", "why_tests_cant": "Agreement of two counting programs has to hold for all ballots; the tests have one contest and votes with one selection.", "anchors": ["cryptoballot_cli/src/command_e2e.rs: command_e2e", "cryptoballot/src/tally.rs: TallyResult::tally", "cryptoballot/src/ballot.rs: Contest, ContestType, Selection", "cryptoballot/src/decryption.rs: DecryptionTransaction"]}
{"id": "C93", "title": "Nodes that are stopped and started again still bring elections to their end", "statement": "A trustee's node may be stopped at any point while it reacts to a block, any number of times, and be started again. However that happens, what is filed stays right: decryptions are what voters selected, and what the REST API returns verifies end to end. When what the node left undone has been made up for, because the transaction it was reacting to was posted again and the node completed its reaction then, the election is set up, every honest vote is decrypted, and the client's elections are counted right. (False in full: a node that is started again does not catch up by itself. Proved: if a trustee's node is stopped before its first submission whenever it reacts to a block with the election in it, the election is never set up, however long the network goes on.)", "quantifier": "all schedules of submissions, blocks, losses and runs of the nodes' hooks, each run to its end or stopped after any number of submissions; all elections, votes and trustees; all primitives with the laws of signatures, key exchange, authenticated encryption, shuffling and threshold decryption", "why_tests_cant": "crash points and restarts combine with all schedules of blocks without bound; no test stops a node", "anchors": ["cryptoballot_server/src/service.rs: after_commit", "cryptoballot_server/src/main.rs: main", "cryptoballot_server/src/tasks.rs: generate_transactions", "cryptoballot_exonum/src/lib.rs: verify_and_store"]}
{"id": "C94", "title": "Which JSON text is a transaction", "statement": "A text is read as a JSON value exactly if it is JSON for that value by the grammar of RFC 8259 (any white space between tokens, any escapes, surrogates only in pairs, strings in UTF-8, no leading zeros), with at most 127 arrays and objects inside each other; the grammar is unambiguous. So a text is read as a transaction exactly if it is JSON for a value that is one, and any way of writing a transaction as JSON, not only the program's own, reads as that transaction. `cryptoballot post` posts exactly this: the file, apart from blanks around it, must be JSON; if it is an array each element must be a transaction and they are posted in order, otherwise it must be one transaction.", "quantifier": "all texts, all files, all values, all transactions and lists of them", "why_tests_cant": "It ranges over every text that can be in a file or in an answer from a node and over every way of writing every transaction.", "anchors": ["cryptoballot_cli/src/command_post_transaction.rs: command_post_transaction", "cryptoballot_cli/src/rest.rs: get_transaction, get_transactions_by_prefix", "cryptoballot/src/transaction.rs: SignedTransaction (Deserialize)"]}
{"id": "C95", "title": "Which plaintext is which vote", "statement": "A decrypted plaintext is taken for a selection exactly if it is a protobuf message whose fields set it: field 1 a number (non-zero means written in), field 2 a number (its lowest 32 bits are the score), field 3 a UTF-8 text, in any order and the last of each counting, fields of other numbers without effect; anything else is refused. No plaintext is two selections, and each selection in an accepted decryption is what the plaintext of its ciphertext says. One selection has many plaintexts: any bytes can ride along with a vote without a trace in the decryption.", "quantifier": "every byte string, every selection, every accepted decryption, every mark", "why_tests_cant": "Ranges over all byte strings, over unbounded fields and nested groups, and over all ledgers.", "anchors": ["cryptoballot/src/ballot.rs: Selection (prost)", "cryptoballot/src/decryption.rs: decrypt_vote, DecryptionTransaction::validate_tx", "cryptoballot/src/vote.rs: encrypt_vote"]}
{"id": "C96", "title": "Authenticators cannot tell who cast which vote", "statement": "What a voter sends to an authenticator to have the voting key signed says nothing about the key: each possible request comes up for as many of the voter's coins whatever the key is. Even all authenticators together cannot tell who cast which vote: however the voting keys are exchanged among any number of voters, there are equally many coins with which every voter sends the very same requests and every key ends up with the very same authentications. This needs blinding that is perfect and signatures that are unique under the authenticators' keys; textbook blind RSA signatures with well-made keys have both. Keys that are not well made are accepted by the validator, and then a request can give the voter's key away.", "quantifier": "all numbers of voters and authenticators, all packages, keys, coins and permutations of the voters; every modulus and hash for the textbook instance", "why_tests_cant": "It counts coins over the whole space of blinding factors and ranges over all permutations of any number of voters.", "anchors": ["cryptoballot/src/authn.rs: AuthPackage::blind, AuthPackage::digest, Authenticator::authenticate, Authentication::unblind", "cryptoballot/src/election.rs: ElectionTransaction::validate_tx"]}
{"id": "C97", "title": "Mixes do not tell who cast which vote", "statement": "Take two ledgers with the same election, encryption key and voting keys, on which the same things were voted for in each contest, but by different voters. For all coins of a node there are equally many coins with which it submits the very same mixes, apart from their proofs, on the other ledger. The same holds for the mix a node makes of another mix: it depends only on what is in the encryptions, not on where it was. This needs shuffles that mix perfectly; textbook re-encryption shuffles over threshold ElGamal do, for every key, and they satisfy every law about mixing the other claims assume. Votes in a contest must have the same number of selections: how many there are is public.", "quantifier": "all ledgers, elections, numbers of voters and contests, all ways of exchanging votes among voters, separately in each contest, all coins; every finite field and vector space for the textbook instance", "why_tests_cant": "It counts coins over the whole space of permutations and factors and ranges over all pairs of ledgers.", "anchors": ["cryptoballot_server/src/tasks.rs: process_voting_end, process_mix", "cryptoballot/src/mix.rs: mix, MixTransaction::new"]}
{"id": "C98", "title": "No more votes than voters", "statement": "If authenticators sign at most once for each voter and nobody forges their signatures, there are no more votes in an election than voters. (False: votes need no signatures at all, so anybody can add as many votes as they have keys; and if each vote must carry the signatures of t out of n authenticators, one voter can get several votes by having different authenticators sign different keys. Proved: votes that do carry the required signatures, times t, are at most n times the voters; if all authenticators must sign, there are no more such votes than voters.)", "quantifier": "all ledgers, elections, sets of voters and ways authenticators may have signed for them, all lists of votes", "why_tests_cant": "A counting argument over every ledger and every way signatures can be distributed among voters.", "anchors": ["cryptoballot/src/vote.rs: VoteTransaction::validate_tx", "cryptoballot/src/authn.rs: Authenticator::authenticate, Authenticator::verify", "cryptoballot/src/election.rs: ElectionTransaction.authenticators_threshold"]}
{"id": "C99", "title": "Votes can be denied", "statement": "Voters who are made to account for their encrypted vote, coins and all, can account for it by any other vote as well (coercion resistance, which the README claims for the mixnet). (False: proved that coins which account for a vote account for that vote only, for every election key made by trustees; so whoever asks for the coins learns the vote.)", "quantifier": "all keys made by an honest run of the key generation, all votes, coins and ciphertexts", "why_tests_cant": "It says that no coins whatsoever exist that account for another vote.", "anchors": ["README.md", "cryptoballot/src/vote.rs: encrypt_vote", "cryptoballot_cli/src/command_vote.rs"]}
{"id": "C100", "title": "Which settings of an election have an effect", "statement": "What is accepted, with which error something is refused, what nodes generate and what the end-to-end command prints depends on nothing in the election transactions but their id, authority, trustees, threshold, authenticators, ballots and their contests' numbers, and whether there is a mixnet (nodes also look at whether any contests are defined). It does not depend on the types, candidates, write-in rule or number of winners of contests, on properties, on the batch size or time limit of the mixnet, or on how many authenticators are to sign. So these settings are not obeyed: in an election with batches of one vote, mixes of two votes are verified.", "quantifier": "all pairs of ledgers that differ in those settings only, all transactions, all secrets and coins of nodes, all files given to the end-to-end command", "why_tests_cant": "It is a statement about pairs of arbitrary ledgers: no test of one setting shows that no ledger exists on which it matters.", "anchors": ["cryptoballot/src/mix.rs: MixConfig, MixTransaction::validate_tx", "cryptoballot/src/election.rs: ElectionTransaction", "cryptoballot/src/ballot.rs: Contest", "cryptoballot/src/vote.rs: VoteTransaction::validate_tx", "cryptoballot_server/src/tasks.rs", "cryptoballot_cli/src/command_e2e.rs"]}
{"id": "C101", "title": "The two ledgers set elections up alike", "statement": "If the same payloads are sent in the same order to the Sawtooth processor and to an Exonum node, the Sawtooth state holds exactly what the Exonum ledger holds of elections, key generation and ends of voting, under the same ids and with the same content. (False if an election is sent again under the id of an earlier one: Exonum keeps the first, Sawtooth the last. Votes, mixes and decryptions never get onto Sawtooth, C55.)", "quantifier": "all sequences of payloads, transactions or not, in which no election comes twice under one id; all ids", "why_tests_cant": "It compares two programs over every sequence of byte strings.", "anchors": ["cryptoballot_sawtooth_tp/src/handler.rs: apply, validate_transaction, CbState", "cryptoballot_exonum/src/lib.rs: verify_and_store, TransactionSchema"]}
{"id": "C102", "title": "Fewer trustees than the threshold learn nothing", "statement": "With threshold encryption as in the textbook, trustees one fewer than the threshold learn nothing about another trustee's part of the election's secret key from the shares it sends them: whatever the shares are, they go with every such part, and with each for exactly one choice of the other coefficients. The commitments on the ledger add nothing but that part of the public key, and decryption shares on the ledger add nothing but the votes themselves: both can be computed from what the coalition has. (C56 says that threshold many do decrypt.)", "quantifier": "all fields of scalars in which the numbers up to 255 differ, all groups over them, all coalitions and thresholds, all secrets and shares, all honest runs of the key generation, all votes and coins", "why_tests_cant": "That shares say nothing is a statement about all secrets that could have led to them.", "anchors": ["cryptoballot/src/trustee.rs: Trustee::keygen_commitment, Trustee::generate_shares, Trustee::partial_decrypt", "cryptoballot/src/keygen.rs: KeyGenCommitmentTransaction, KeyGenShareTransaction", "cryptoballot/src/decryption.rs: PartialDecryptionTransaction"]}
{"id": "C103", "title": "Submissions and the ledger in bytes", "statement": "A node takes exactly those bytes for a submission that say one (key, label and payload as protobuf fields), no bytes say two, and what clients and nodes send of a transaction is received as that transaction under its own id. Whatever messages reach the service, every entry of the storage can be read back, and what is read is the ledger that the submissions among the messages lead to. In whatever bytes a submission is sent again, it is carried out once. (False that a submission has one form only: fields without meaning can be put behind it.)", "quantifier": "all byte strings, all submissions, all sequences of messages shorter than 4 GiB", "why_tests_cant": "Every byte string and every sequence of messages is covered, malformed ones too.", "anchors": ["cryptoballot_exonum/src/lib.rs: Transaction, TransactionSchema, verify_and_store", "cryptoballot_exonum/src/proto/service.proto", "cryptoballot_server/src/service.rs: submit_tx"]}
{"id": "C104", "title": "Who wins", "statement": "For plurality, score, approval and Borda contests, the tally reports the number of ballots, every candidate named on a ballot once with their result (times named, sum of scores, points), and their rank: a better rank exactly for a higher result, the same rank exactly for the same result, from zero without gaps. If there is a seat, a candidate wins exactly if they are named and fewer candidates than seats did better. So the order of ballots and of selections does not matter; no seat stays empty while somebody is named; without ties exactly as many win as there are seats; and whoever has more than half of the selections wins a plurality contest with one seat alone. (False that no more win than there are seats: all who tie for the last seat win. False that ballots that cannot be counted are reported as spoiled: none ever is, and one of them stops a Borda tally.)", "quantifier": "all lists of ballots, all numbers of seats, the contest types plurality, score, approval, Borda, classic Borda and modified classic Borda (Borda: ballots that name no candidate twice and give no two candidates the same rank)", "why_tests_cant": "Every set of ballots and every pattern of ties is covered.", "anchors": ["cryptoballot/src/tally.rs: TallyResult, TallyResult::tally", "cryptoballot/src/ballot.rs: ContestType, Contest"]}
{"id": "C105", "title": "Whoever verifies an election sees the same result", "statement": "The end-to-end command verifies what some node gives it. Whichever node answers, and whatever it leaves out or makes up, everyone whose verification succeeds is shown the same result. (False in full: without mixnet, a node can hide a vote with its decryption shares and its decryption. With mixnet, a node can combine shares that trustees have sent out for a mix that is not the last, and so add votes. Proved, if what is shown contains no transaction of the authority or a trustee that is not on the ledger, and no second vote under a voter's key: every decryption shown is of an item on the ledger, and says what that item contains, which is what a decryption of it on the ledger says. If everything of which there are shares on the ledger is decrypted there (without mixnet: if all votes are), no candidate is printed with more votes than on the ledger. With mixnet, whoever is shown any decryption is shown every vote on the ledger; and if trustees have mixed in one batch and decrypted only mixes that are not mixed again, whoever is also shown that everything is counted is shown the ledger's result.)", "quantifier": "all elections with a positive threshold, all pairs of lists of transactions that verify (what is shown and what is on the ledger), all keys of trustees and voters, threshold encryption that decrypts correctly", "why_tests_cant": "The node that answers may choose any list of transactions; a test tries a few.", "anchors": ["cryptoballot_cli/src/command_e2e.rs: command_e2e", "cryptoballot_cli/src/rest.rs: get_transactions_by_prefix", "cryptoballot/src/decryption.rs: DecryptionTransaction::validate_tx", "cryptoballot/src/mix.rs: MixTransaction::validate_tx"]}
{"id": "C106", "title": "A trustee's secrets serve one election each", "statement": "A trustee has one key for all elections. What their node publishes when a transaction is committed depends, as far as derived secrets go, on those of the election that the transaction names and on nothing derived for another election; in every history of a network, the secrets for elections that were never announced are not used. The secrets for different elections, and within an election those of the key exchange, of the polynomial and of the channels to other trustees, are derived from different inputs, so they can be any secrets independently of each other. A trustee commits to one polynomial per election. (False in full: on the blockchain a copy of an election with another threshold, filed under another id by anybody, makes the trustees' nodes publish a second commitment for that election, from the same secret. Proved if every transaction is filed under its own id.)", "quantifier": "all ledgers and histories, all derivation functions, all keys of trustees, all elections, all committed transactions, all randomness", "why_tests_cant": "That a secret is not used is a statement about every other value it could have had.", "anchors": ["cryptoballot/src/trustee.rs: Trustee::x25519_secret_key, Trustee::shared_secret, Trustee::generator", "cryptoballot_server/src/tasks.rs: generate_transactions", "cryptoballot_exonum/src/lib.rs: verify_and_store"]}
{"id": "C107", "title": "How much an election can put on the ledger", "statement": "The ledger only grows, so the amount of what is accepted matters. Of an election without mixnet there are at most three transactions, three for each trustee, its votes, and for each encrypted vote one for each trustee and one more; with mixnet also its mixes, and for each output of a mix one for each trustee and one more, where no mix has more outputs than there are votes. There are no more mixes for a contest and batch than trustees. Decryptions that decrypt anything, times the threshold, are no more than the shares. (False in full: for the steps of key generation, the encryption key and the end of voting the id is not checked, so a trustee can file as many commitments as there are free ids; trustees can decrypt votes of other elections; mixes for contests that no ballot has are accepted. Proved if those steps are filed under the ids that belong to them, counting the votes of all elections.)", "quantifier": "all ledgers, all elections on them, all lists of different transactions of the election", "why_tests_cant": "A bound on everything that can ever be accepted ranges over all ledgers.", "anchors": ["cryptoballot/src/keygen.rs: validate_tx, build_id", "cryptoballot/src/voting_end.rs: VotingEndTransaction::validate_tx", "cryptoballot/src/mix.rs: MixTransaction::validate_tx", "cryptoballot/src/decryption.rs: PartialDecryptionTransaction::validate_tx, DecryptionTransaction::validate_tx, build_unique_info"]}
{"id": "C108", "title": "The command line acts on what is typed", "statement": "The program uses the node and the key given on the command line, or else those in CRYPTOBALLOT_URI and CRYPTOBALLOT_SECRET_KEY, or else the node at localhost:8080 and no key; then no variable has any effect if both are given. It runs the command with its arguments exactly as typed: in particular the vote that is encrypted is the text that was typed (false of the code: votes and identifiers go through the shell expansion meant for file names, so a vote with a dollar sign in it or a tilde in front becomes another vote or ends the program). No trustee or authenticator is shown whose secret was not saved to the named file, no other file is changed, and a secret that is already in that file is kept (false of the code: it is overwritten without a word).", "quantifier": "all nodes, environments, file systems, shell expansions that leave texts without `$` and leading `~` alone, keys, subcommands and arguments", "why_tests_cant": "A test fixes one environment and a few arguments; the claim is about every text that a voter may type and every environment that the program may run in.", "anchors": ["cryptoballot_cli/src/main.rs: main, expand", "cryptoballot_cli/src/command_vote.rs: command_vote_generate", "cryptoballot_cli/src/command_trustee.rs: command_trustee_generate", "cryptoballot_cli/src/command_authn.rs: command_authn_generate", "cryptoballot_cli/src/command_post_transaction.rs: command_post_transaction"]}
{"id": "C109", "title": "Contests treat candidates alike and reward support", "statement": "Calling all candidates by other names changes nothing but the names in the totals and among the winners. Whoever wins still wins if one more ballot is cast that names only them, or (plurality, score, approval) if a mark for somebody else is changed into one for them, or (Borda) if they change places with somebody ranked better on one ballot. Whoever wins the only seat in two districts wins it when the ballots are counted together, and then nobody else wins but those who win in both (proved for plurality, score, approval and modified Borda contests; false for the other Borda contests, where the points of a place depend on the number of candidates named anywhere, and for several seats). A ballot that names only one candidate decides between that candidate and the others, not among the others (likewise; in Borda contests one stray write-in can turn the winner).", "quantifier": "all contests with a total per candidate, all lists of ballots, all numbers of seats, all renamings, all added ballots", "why_tests_cant": "These compare the outcomes of two contests for every set of ballots; a test compares a few.", "anchors": ["cryptoballot/src/tally.rs: TallyResult::tally", "cryptoballot/src/ballot.rs: ContestType"]}
{"id": "C110", "title": "Errors tell the truth", "statement": "When a transaction is refused, the reason that is given is true of the transaction and of what is stored: the trustee that is said not to exist does not, the vote count that is said to be wrong is wrong, and so on for every reason (true for votes, ends of voting, encryption keys, commitments and public keys; false of the code for four reasons: a missing share is reported with the sender's number instead of the number of the trustee whose share is missing, the threshold is said to be invalid if there are 256 authenticators, a list with a repeated vote is said not to be ascending, and every position in a mix of 65536 outputs is said not to exist). Conversely no transaction of which one of the reasons is true is accepted, except that votes whose keys agree in their first 10 bytes are accepted.", "quantifier": "all histories of accepted transactions, all transactions that are refused, all reasons; conversely all transactions, all reasons but one, elections whose authenticators and ballots have different ids", "why_tests_cant": "A test looks at one refusal of each kind; the claim is that there is no transaction at all for which the answer misleads the person who sent it.", "anchors": ["cryptoballot/src/error.rs: ValidationError", "cryptoballot/src/transaction.rs: SignedTransaction::validate", "cryptoballot/src/keygen.rs: KeyGenShareTransaction::validate_tx", "cryptoballot/src/election.rs: ElectionTransaction::validate_tx", "cryptoballot/src/mix.rs: MixTransaction::validate_tx", "cryptoballot/src/decryption.rs: encrypted_vote_from_upstream_tx"]}
{"id": "C111", "title": "Messages say which transaction is at fault and why", "statement": "No two reasons for refusing a transaction have the same text, down to the numbers and ids in it, as long as the texts of the cryptographic library differ. So whoever sees what the end-to-end command prints when it fails knows which transaction is at fault and for which reason, and whoever submits to Sawtooth learns the id and type of the refused transaction and the reason. It is false of the code on Exonum: whoever submits there gets the same answer whatever the reason is.", "quantifier": "all pairs of reasons; all answers of nodes to the end-to-end command; all states of the Sawtooth ledger and all refused transactions; all texts of the libraries that differ from each other", "why_tests_cant": "A test compares the text of a few errors with what is expected; that no two of the texts agree, for all numbers and ids in them, is a claim about every pair.", "anchors": ["cryptoballot/src/error.rs: ValidationError", "cryptoballot/src/store.rs: TransactionNotFound", "cryptoballot/src/transaction.rs: TransactionType::name", "cryptoballot_cli/src/command_e2e.rs: command_e2e", "cryptoballot_sawtooth_tp/src/error.rs: TPError", "cryptoballot_sawtooth_tp/src/handler.rs: apply", "cryptoballot_exonum/src/lib.rs: verify_and_store"]}
{"id": "C112", "title": "Which refusals are final", "statement": "A transaction that is refused is refused for good, whatever the ledger accepts in between, unless the reason is one of nine: something that must be there first is not there yet (the election or another transaction named by id, the encryption key, the end of voting, the previous mix), the number of public keys or of votes does not fit, or a decryption fails, cannot be decoded or is another. None of the nine can be left out of the list: each is given to a transaction that is accepted later. On the Exonum ledger a submission refused for any other reason is refused ever after, whatever is submitted in between.", "quantifier": "all histories of accepted transactions, all later histories that keep what is stored, all refused transactions of all types, all reasons; builds with and without overflow checks", "why_tests_cant": "A test can send a transaction again after a few others; that no future of the ledger makes it acceptable is a claim about all continuations.", "anchors": ["cryptoballot/src/transaction.rs: SignedTransaction::validate", "cryptoballot/src/error.rs: ValidationError", "cryptoballot/src/vote.rs: VoteTransaction::validate_tx", "cryptoballot/src/mix.rs: MixTransaction::validate_tx", "cryptoballot/src/keygen.rs: EncryptionKeyTransaction::validate_tx", "cryptoballot/src/decryption.rs: PartialDecryptionTransaction::validate_tx, DecryptionTransaction::validate_tx"]}
{"id": "C113", "title": "Sending again until it is accepted", "statement": "On the Exonum ledger, transactions that would all be accepted when sent once each in some order end up all stored, unchanged, however they are sent - out of order, with refused attempts, with repetitions and between submissions of others - as long as that order is contained in the sequence of attempts and nothing that is sent takes the place of one of them or gets in its way. Sending all of them as many times over as there are transactions, in any order and in another one each time, is always enough. Without the last condition this is false: a vote sent again and again is never stored once the voting has been ended before it.", "quantifier": "all earlier submissions, all lists of transactions that fit together, all sequences of attempts that contain them, all orders, any number of rounds", "why_tests_cant": "The attempts can be interleaved and repeated in unboundedly many ways, and each refused attempt could in principle leave a trace that spoils a later one.", "anchors": ["cryptoballot_exonum/src/lib.rs: verify_and_store, Schema::get_transaction", "cryptoballot/src/transaction.rs: SignedTransaction::validate"]}
{"id": "C114", "title": "Elections can be carried from one ledger to another", "statement": "What an Exonum ledger accepted, submitted again in the same order to an empty ledger, gives the very same ledger, whatever else had been submitted and refused; submitting again what is stored changes nothing; two ledgers are equal exactly if they accepted the same submissions, in whatever order. A listing without repeated ids that passes end-to-end verification can be posted, in the order listed, to any other ledger that holds nothing that takes its place or gets in its way: every transaction is accepted, and the ledger then holds exactly what it held and what was posted. The other node then lists exactly the same for that election, so verification there gives the same report. With the tools: the body of a node's answer, saved to a file and posted with the command line to the other node, makes that node give the same answer and the end-to-end command find the same there.", "quantifier": "all submissions to the first ledger, accepted or refused, labelled rightly or not (for rebuilding); all listings that verify, all states of the other ledger reached by rightly labelled submissions, all prefixes asked for", "why_tests_cant": "A test copies one election to one ledger; that no refused submission leaves a trace, and that no content of the other ledger but the named one matters, are claims about all histories.", "anchors": ["cryptoballot_exonum/src/lib.rs: verify_and_store", "cryptoballot_server/src/service.rs: submit_tx", "cryptoballot_server/src/api.rs: get_all", "cryptoballot_cli/src/command_e2e.rs", "cryptoballot_cli/src/command_post_transaction.rs"]}
{"id": "C115", "title": "Announcements on the Sawtooth ledger", "statement": "After every history of payloads the Sawtooth ledger holds, under the id of an election, the last acceptable announcement with this id, whoever signed it; an acceptable announcement takes effect whenever it is sent, so one that was replaced can be put back by anybody who kept a copy. The state can be rebuilt from the applied payloads in the order in which they were applied. One expects as on Exonum that the order does not matter; it is false of the code: the same announcements applied in another order leave another state.", "quantifier": "all histories of payloads, parseable or not, accepted or refused; all ids of elections; all states to start from (for rebuilding)", "why_tests_cant": "Which announcement counts depends on everything that was sent before; a test can only replay a few histories.", "anchors": ["cryptoballot_sawtooth_tp/src/handler.rs: CbTransactionHandler::apply, validate_transaction", "cryptoballot/src/election.rs: ElectionTransaction::validate_tx"]}
{"id": "C116", "title": "The order in which a node shows an election does not matter", "statement": "If a node shows the same transactions in another order, or shows some of them several times, then whoever verifies the election is shown the same report, whichever of votes, tally and results they ask for, or their verification fails. (False in full: the end-to-end command does not check that an id is shown once, and of two transactions with one id the one shown last counts, so that the order can decide who the authority is. Proved if no two different transactions with the same id are shown, and both lists begin with the same election.)", "quantifier": "all pairs of lists with the same transactions that both verify, all flags", "why_tests_cant": "The number of orders grows with the factorial of the number of transactions, and the answer is chosen by a node that may be dishonest.", "anchors": ["cryptoballot_cli/src/command_e2e.rs: command_e2e", "cryptoballot/src/store.rs: MemStore::set"]}
