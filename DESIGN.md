# Formal model of cryptoballot: design

Source: `/repo` (cryptoballot, Rust), read as text. Model and proofs: `/verif/lean`, Lean 4.33.0 and Mathlib.

## 1. Approach

* The decision logic of the code is transcribed function by function into Lean: identifiers, the store, the ten
  `validate_tx` functions, signing, serialization (CBOR, JSON shapes, protobuf), the Exonum and Sawtooth ledgers, the server's reactions,
  the read API, the command line client, and the tally. Each definition cites the file and lines it models.
* A Rust call has three outcomes: value, error, panic. `Res ε α` = `ok | err | panic` models this. Every `unwrap`, `expect`,
  slice, wrong-variant `into()`, overflowing arithmetic and `todo!()` on a modelled path is an explicit `panic`.
* Third-party cryptography is a parameter: the structures `Env` (what validation needs) and `NodeEnv` (what trustees, voters and nodes need) hold Ed25519, RSA
  blind signatures, threshold ElGamal, verifiable shuffle, HKDF, X25519 and AES-GCM as arbitrary functions. Theorems hold for every environment. Where a
  property needs a law ("what is signed verifies"), the law is a named hypothesis (`Verif/Spec/Laws.lean`, `Spec/Network*.lean`), and an environment that meets it is exhibited.
  Textbook threshold ElGamal over any field and vector space is proved to meet the threshold law (`Verif/Props/Threshold.lean`).
* Histories are lists of operations from the empty ledger. Properties of histories are invariants proved by induction on the list, with no bound on its length.
* Networks of nodes (C65, C66, C68, C69) are lists of submissions, deliveries and reactions in any order, with nodes that see any prefix of the ledger.
* When the code does not have a property, the negation is proved with a concrete reachable witness (`Cnn_..._false`), and what does hold is
  proved as `Cnn_..._partial` or under a proviso in the statement.
* Theorems are tested against wrong programs: `seeded/LOG.jsonl` lists edits of the model and the theorems that fail for them.

## 2. Layout

* `lean/Verif/Model/*`: the model.
* `lean/Verif/Spec/*`: the vocabulary of the theorem statements, independent of the model's helpers.
* `lean/Verif/Lemmas/*`: helper lemmas.
* `lean/Verif/Props/*`: the property theorems `Cnn_*`, with `example`s beside them showing that their hypotheses can be met.
* `lean/Verif/Examples/*`: a toy environment, a small election run with it, and textbook ElGamal.
* `properties.jsonl`: the properties in English. `MANIFEST.json`: property, status, theorems, notes.

## 3. Properties and outcomes

Full statements are in `properties.jsonl`, notes in `MANIFEST.json`.

| id | property | outcome | in Props/ |
|---|---|---|---|
| C01 | Identifier text round-trip | proved | Identifiers |
| C02 | Parsing identifier text never crashes | false in part: witness, and what holds | Identifiers |
| C03 | Identifier order is byte order and text order | proved | Identifiers |
| C04 | Type scan is exact | proved | Stores |
| C05 | Range scan is exact | proved | Stores |
| C06 | MemStore is a map keyed by transaction id | proved | Stores |
| C07 | Ledger ids for keygen, encryption-key and mix steps are collision free | proved | Ids |
| C08 | Decryption ids are collision free | false in part: witness, and what holds | Ids |
| C09 | No type confusion in accepted transactions | proved | Signing |
| C10 | Accepted means signed | proved | Signing |
| C11 | Sign then verify | proved | Signing |
| C12 | Election acceptance | false in part: witness, and what holds | Setup |
| C13 | Trustee steps only by listed trustees | proved | Setup |
| C14 | Key shares cover all trustees | proved | Setup |
| C15 | Encryption key is unanimous | proved | Setup |
| C16 | Each election's steps are its own | false in part: witness, and what holds | Setup |
| C17 | No votes after voting ends | proved | Voting |
| C18 | No votes before the encryption key | proved | Voting |
| C19 | Votes stay on their ballot | proved | Voting |
| C20 | Voters are authenticated by a quorum | false in part: witness, and what holds | Voting |
| C21 | Anonymous keys do not collide in 80 bits | false in part: witness, and what holds | Voting |
| C22 | At most one selection set per contest per vote | false in part: witness, and what holds | Mixing, Voting |
| C23 | First mix covers exactly all votes | proved | Mixing |
| C24 | Mix chain integrity | proved | Mixing |
| C25 | Mixing preserves the votes | proved | Mixing |
| C26 | Mix only after voting ended | false in part: witness, and what holds | Mixing |
| C27 | Partial decryption only after voting ended | proved | Decrypting |
| C28 | Partial decryption is proven | proved | Decrypting |
| C29 | Only fully mixed votes are decrypted | false in part: witness, and what holds | Decrypting |
| C30 | Decryption is the threshold decryption of stored partials | false in part: witness, and what holds | Decrypting |
| C31 | A quorum of distinct trustees stands behind each decryption | false in part: witness, and what holds | Decrypting |
| C32 | Decryption result is unique | proved | Decrypting |
| C33 | Validation never crashes | false in part: witness, and what holds | Robust |
| C34 | Elections are isolated | proved | Isolation, Robust |
| C35 | Accepted ledgers are append-only (Exonum) | proved | Exonum |
| C36 | Exonum entries are filed under their own id | false in part: witness, and what holds | Exonum |
| C37 | Exonum envelope round-trip | proved | Exonum |
| C38 | Exonum store refines the map store | false in part: witness, and what holds | Exonum |
| C39 | Prefix query is exact | false in part: witness, and what holds | Api |
| C40 | End-to-end verification replays the ledger | proved | E2e |
| C41 | Verified elections are fully counted | false in part: witness, and what holds | E2e |
| C42 | Honest keygen steps are accepted | false in part: witness, and what holds | Server |
| C43 | Server reacts exactly when the step is complete | false in part: witness, and what holds | Server |
| C44 | Server-generated mixes are accepted | false in part: witness, and what holds | ServerMix |
| C45 | Every item is partially decrypted | false in part: witness, and what holds | ServerPartials |
| C46 | Server-generated decryptions are accepted | proved | ServerDec |
| C47 | Serialization round-trip | proved | Serialization |
| C48 | Signatures bind content and type | proved | Serialization |
| C49 | Selection encoding round-trip | proved | Serialization |
| C50 | Encrypted share round-trip | false in part: witness, and what holds | Shares |
| C51 | Blind authentication works | proved | Authn |
| C52 | Plurality tally counts each selection | proved | Tally |
| C53 | One ballot, one plurality vote | false in part: witness, and what holds | Tally |
| C54 | Tallying never crashes | false in part: witness, and what holds | Tally |
| C55 | Sawtooth processor accepts elections flows | false in part: witness, and what holds | Sawtooth |
| C56 | Any quorum decrypts the same vote | proved | Threshold |
| C57 | Decoding untrusted bytes never crashes | false in part: witness, and what holds | Serialization |
| C58 | Nobody can block mixing on the Exonum ledger | false in part: witness, and what holds | Exonum |
| C59 | An honest ledger passes end-to-end verification | false in part: witness, and what holds | E2eHonest |
| C60 | The printed tally is exact | false in part: witness, and what holds | E2e |
| C61 | Score and approval totals | proved | Tally |
| C62 | What a node receives it can store and read back | proved | Sawtooth |
| C63 | What the command line client produces is accepted | false in part: witness, and what holds | Client |
| C64 | No transaction crashes a trustee's node | false in part: witness, and what holds | NodeCrash |
| C65 | A network of nodes sets every announced election up | false in part: witness, and what holds | Network |
| C66 | Elections without mixnet run by nodes end with every honest vote decrypted | false in part: witness, and what holds | NetworkTally |
| C67 | Trustees find their own record in the election | false in part: witness, and what holds | Records |
| C68 | Elections with mixnet run by nodes end with all honest votes mixed and decrypted | false in part: witness, and what holds | NetworkMix |
| C69 | Elections held by nodes verify end to end, and the client's elections are counted right | false in part: witness, and what holds | NetworkE2e, Together |
| C70 | Elections held by nodes on the blockchain, block by block, come out right | false in part: witness, and what holds | Blocks, Together |
| C71 | Elections held by nodes on the blockchain complete | false in part: witness, and what holds | Rest, RestMix |
| C72 | A verified result is made of votes cast | false in part: witness, and what holds | Verifiable |
| C73 | A contest that a voter has left out is never counted | proved | LeftOut |
| C74 | Transactions survive JSON | false in part: witness, and what holds | Json |
| C75 | What is acceptable stays acceptable | proved | Order |
| C76 | The order of votes does not decide who gets in | false in part: witness, and what holds | Order |
| C77 | A quorum of trustees is enough, whatever the others do | false in part: witness, and what holds | Quorum |
| C78 | Results are final | false in part: witness, and what holds | Finality |
| C79 | Ballot independence | false in part: witness, and what holds | Copying |
| C80 | The command line's outputs can be used as its inputs | proved | Cli |
| C81 | Which bytes are a transaction | proved | Encoding, JsonText |
| C82 | Unsigned transactions | false in part: witness, and what holds | Unsigned |
| C83 | No voter is kept out | false in part: witness, and what holds | Voter |
| C84 | Borda totals are as documented | false in part: witness, and what holds | Borda |
| C85 | Head-to-head totals | false in part: witness, and what holds | Pairs |
| C86 | What the end-to-end command reports | false in part: witness, and what holds | Report |
| C87 | Debug and release nodes hold the same ledger | false in part: witness, and what holds | Builds |
| C88 | The end-to-end report is about the election asked for | false in part: witness, and what holds | Foreign, Together |
| C89 | The printed report cannot be forged by what is voted for | false in part: witness, and what holds | Forged |
| C90 | Votes stay sealed while voting is open | false in part: witness, and what holds | Secrecy |
| C91 | Shares of a trustee's key are only for the trustees of the election | false in part: witness, and what holds | KeySecrecy |
| C92 | Printed totals are those of the contests | false in part: witness, and what holds | Contests |
| C93 | Nodes that are stopped and started again still bring elections to their end | false in part: witness, and what holds | Crash |
| C94 | Which JSON text is a transaction | proved | JsonText |
| C95 | Which plaintext is which vote | false in part: witness, and what holds | Plaintext |
| C96 | Authenticators cannot tell who cast which vote | false in part: witness, and what holds | Unlinkable |
| C97 | Mixes do not tell who cast which vote | proved | MixSecrecy |
| C98 | No more votes than voters | false in part: witness, and what holds | Voters |
| C99 | Votes can be denied | false in part: witness, and what holds | Receipt |
| C100 | Which settings of an election have an effect | false in part: witness, and what holds | Settings |
| C101 | The two ledgers set elections up alike | false in part: witness, and what holds | Backends |
| C102 | Fewer trustees than the threshold learn nothing | proved | Sharing |
| C103 | Submissions and the ledger in bytes | false in part: witness, and what holds | Wire |
| C104 | Who wins | false in part: witness, and what holds | Winners |
| C105 | Whoever verifies an election sees the same result | false in part: witness, and what holds | Views, ViewsMixed |
| C106 | A trustee's secrets serve one election each | false in part: witness, and what holds | Separation |
| C107 | How much an election can put on the ledger | false in part: witness, and what holds | Size |
| C108 | The command line acts on what is typed | false in part: witness, and what holds | Args |
| C109 | Contests treat candidates alike and reward support | false in part: witness, and what holds | Fairness |
| C110 | Errors tell the truth | false in part: witness, and what holds | Errors |
| C111 | Messages say which transaction is at fault and why | false in part: witness, and what holds | Messages |
| C112 | Which refusals are final | proved | Final, FinalExonum |
| C113 | Sending again until it is accepted | proved | Retry |
| C114 | Elections can be carried from one ledger to another | proved | Copy, CopyTools |
| C115 | Announcements on the Sawtooth ledger | false in part: witness, and what holds | Announce |
| C116 | The order in which a node shows an election does not matter | false in part: witness, and what holds | Shown |

## 4. Where the code falls short

Each of these is a theorem `Cnn_..._false` with a concrete reachable witness, or follows from an exact characterisation.

* C02, C57: parsing an identifier panics on a bad type byte and on inputs of 16 bytes; so does decoding transactions that contain one.
* C08, C30: partial decryptions and decryptions of votes are filed by the first 10 bytes of the voter's key only.
* C12: the number of authenticators is compared modulo 256.
* C16, C65: key generation, encryption key and voting end transactions may carry any id, so one election's transactions can fill another election's slots.
* C20: `authenticators_threshold` is not enforced; votes without any authentication are accepted.
* C21: the check against colliding voter keys looks at one id only.
* C22: one vote may hold several encrypted votes for one contest.
* C26: mixes are accepted before voting has ended.
* C29: outputs of mixes other than the last can be decrypted.
* C31, C66: a decryption may list a trustee twice, and both count towards the threshold.
* C33: a mix whose predecessor is not a mix, index 0 and large mix indices panic in validation.
* C36, C38, C58: the Exonum service files a transaction under the id its envelope claims.
* C39: prefix queries miss entries stored under shorter keys.
* C41: end-to-end verification succeeds although votes were never decrypted.
* C42, C43: nodes count stray commitments and then submit shares that are refused.
* C44, C68: nodes' mixes after the first are always refused, so with a mixnet and a threshold of two or more, nothing is ever decrypted by nodes; a voter who leaves a contest out makes the first mix refused.
* C45: more than 65536 outputs, repeated contests and elections without described contests break the nodes' partial decryptions.
* C50: decrypting an encrypted share of fewer than 12 bytes panics.
* C53: every selection on a plurality ballot counts. C54: Schulze (ratio) is `unimplemented!()`, Dowdall contests panic because totals are integers, and duplicate selections panic in ranked contests.
* C55: the Sawtooth processor never accepts votes, crashes on them, and lets anyone replace elections.
* C59: honest ledgers may fail end-to-end verification, because it replays in the order of ids.
* C69: the end of voting of a stranger's election, filed under another election (C16), makes the latter fail end-to-end verification.
* C60: printing results panics on empty votes and without votes.
* C63: a stranger can take the place of an election's encryption key, and clients then encrypt to the stranger.
* C64: a stranger can crash nodes. C66: an eligible voter can crash trustees' nodes with a malformed ciphertext.
* C67: library and node disagree on trustees who share a key.
* C70: nodes submit each reaction once and ignore errors; what gets lost is never made up for, until someone posts the transaction that caused it again.
* C72: in a verified election with mixnet a vote counts twice if an output of an inner mix is decrypted as well; the printed tally shows it twice. One voter can be counted twice in a contest if another has left it out.
* C73: a contest that one voter left out is lost for all, for good.
* C74: serde_json reads at most 127 nested containers. Nodes answer prefix queries with a list, one level more than a transaction, so an election that nests 127 deep is accepted but makes every listing it appears in unreadable. Anyone can post one with an id that begins with the 15 digits `e2e` asks for, and `e2e` then panics on the other election, for good.
* Not proved, since it concerns a dependency: `rust_decimal`'s feature `serde-arbitrary-precision` switches on serde_json's `arbitrary_precision` for the whole program. With it, numbers inside internally tagged enums are known to be read as maps, and reading transactions from JSON may fail altogether. The model takes it to be off.
* Not proved, since it concerns data: the sample elections in `test_elections/` lack the contests' `id` and cannot be read by the current code.
* C75, C76: a vote whose key begins with some 10 bytes and goes on with 6 zeros keeps votes out whose keys begin with the same 10 bytes, if it comes first; in the other order both are accepted.
* C77: a trustee may post any number of public keys, and the one with the greatest id counts. After posting a valid partial decryption of an item, a single trustee can post another public key that this does not verify against. Nodes decrypt with all partial decryptions stored, so all of them fail (and `after_commit` panics) on the item from then on, although the other trustees are enough; a decryption listing only the others would be accepted, but no program submits one.
* C78: with a mixnet, results are not final. After everything has been decrypted and printed, trustees may have outputs of an inner mix decrypted as well, and the verified tally changes. Without a mixnet results are final once voting has ended and every vote is decrypted, provided that submissions are labelled with their ids; mislabelled ones let a vote of another election be counted later (C88).
* C79: votes can be copied. Whoever sees an accepted vote can cast its ciphertexts under a fresh key, without decrypting them and without any authentication (C20), and the copy is accepted and counted.
* C80: `trustee generate` gives every trustee the index 1, so two generated trustees never reach a threshold of two. `authn generate` makes a key for the ballot "TEST" only, while `election generate` makes the ballot "BALLOT1". `tally` prints nothing. `sign` always panics (the argument is misspelt in `value_of("algorithim")`). A malformed secret key in the environment makes every command exit, also those that need none.
* C81: the bytes of a transaction are not determined by its content, and the signature does not cover them: the signed bytes are computed anew from the values read. Without any key, anybody can rewrite a transaction on its way to the ledger into other bytes (indefinite lengths, wider numbers, tags) or add arbitrary content under unused field names; it is accepted and read as the same transaction. The verdict, ids and everything read from the ledger are unaffected (proved), but two honest observers cannot compare transactions or ledgers by their bytes.
* C82: unknown fields are ignored, and the same names serve both kinds of transaction, so there are bytes that are read both as a signed and as an unsigned transaction (a map that holds the fields of both). Bytes that a program wrote as one are never read as the other. What is signed is not the serialization of an unsigned transaction but that of the transaction's content without its type.
* C83: strangers can end the voting of every election: with an end of voting of their own election under its id (C16), or with any acceptable transaction in an envelope labelled as its end of voting (C36). Votes that arrive later are refused.
* C84: ranked contests promise that equal ranks are equal preference; in the three Borda contests the selection listed first gets more points.
* C85: totals of pairs are filed under the text `a > b`; with candidates called `a > b`, `c`, `a` and `b > c` two pairs share one text, and one total replaces the other.
* C86: the end-to-end command prints one winner also if there is a tie.
* C87: nodes built with and without overflow checks can store different things: the mix by trustee 0, if there are trustees 0 to 255 and all the others have mixed.
* C88: the end-to-end command asks the node for ids with the same first 15 of 30 digits of the election's id, and reports on the election of the first transaction in the answer. Anybody can create an election with a lesser id of this kind; the command then prints "verified OK" and the stranger's (empty) tally, although it was asked for the other election by its full id. Election ids are chosen by whoever creates the election. In the same way anybody can make the command fail. Moreover, `encrypted_vote_from_upstream_tx` does not check that the vote to be decrypted belongs to the election of the decryption. In answers in the order of ids no vote of another election can come before the decryptions of the first election, so none can be counted in its report; but with mislabelled submissions (C36) it can.
* C89: the report prints what was voted for as it is, with line breaks; one vote can look like many candidates with any number of votes.
* C90: anybody can have the trustees' nodes publish decryption shares of all votes of any election at any time, without its mixes. They store an election with the same id, trustees and threshold, but with themselves as the authority and without mixnet, in an envelope labelled with another id L (C36), and then submit an end of voting that names L. Nodes look up L, find the lookalike, and decrypt the votes of the election that the lookalike calls its own. The shares are out once they are broadcast, whether or not they are stored. Moreover `process_mix` decrypts after the last mix without looking whether voting has ended (and mixes are accepted before it, C23); this is harmless as long as too few trustees submit mixes by hand, because later mixes made by nodes are always refused (C44).
* C91: a trustee's polynomial depends only on its secret key and the id of the election, not on its index, the threshold or the other trustees. A stray commitment (C16) of a trustee of any election makes nodes encrypt a share for its sender during set-up. Worse, a lookalike election with the same id under another label (C36), in which the trustees have other indexes and the stranger is several trustees, makes nodes send the stranger values of the very polynomials of the real election, after its set-up and while votes are cast; with textbook threshold encryption threshold many values for each trustee are enough to read every vote (proved as `C91_shares_read_votes`).
* C92: the end-to-end command counts first selections of all decryptions of the election together, whatever contest they are of and whatever its type; a score or approval contest is printed as if it were a plurality contest, and `yes` in two contests counts twice. Whether a name is a candidate, and whether write-ins are allowed, is checked nowhere (election.rs:166-172 and vote.rs have it as a TODO; the errors `contest not found`, `candidate ID not found` exist but are never returned).
* C93: a node that is stopped while it reacts to a block does not react to that block after it is started again: nothing is written down about what is still to be done (service.rs:52-128), and nothing is looked through at the start (main.rs). If it is the election's block, the election is never set up; if it is the block with the end of voting, the mix or a decryption share, votes stay undecrypted. Posting anything under the id of the transaction that was missed makes up for it (C70_reposting_makes_nodes_react).
* C95: a selection has many plaintexts (fields repeated, in another order, with unknown fields). A voter can put any bytes into an unknown field; the decryption shows nothing of them, but everybody who recomputes the plaintext from the published shares sees them. So a vote can be marked for a buyer although the mixnet hides where it came from.
* C96: nothing about the keys of authenticators is checked (election.rs:145-175). With an RSA exponent that has no inverse, blinded requests give the voter's key away, and an authenticator who publishes such a key can link votes to voters.
* C98: the number of votes is bounded by nothing. Votes need no authentications (C20), so anybody can fill the ballot box (`C98_anyone_can_stuff_the_box`). Even if votes had to carry the signatures of t of n authenticators, a voter who has different authenticators sign different keys gets up to n/t votes: an authenticator cannot see what the others signed, because it signs blindly.
* C99: the README says the mixnet provides coercion resistance. A voter's coins prove how they voted: no coins account for the same ciphertexts and another vote.
* C100: the election's batch size (mix.rs:210-213, a TODO), mixing time limit, number of required authenticators, contest types, candidates, write-in rules and numbers of winners have no effect on what is accepted, generated or printed. (The README also says that an election can have an end time; there is no such field.)
* C101: the Sawtooth processor takes an election again under the same id, from anybody (C55); Exonum does not. Otherwise both hold the same set-up transactions.
* C103: a submission has many encodings (unknown fields, repeated fields, longer varints), so the same submission can be sent as different Exonum messages; it is carried out once.
* C104: candidates who tie for the last seat all win, so more can win than there are seats; `spoiled_ballots` is always empty, and one ballot that names a candidate twice stops a Borda tally.
* C105: the end-to-end command asks one node and for no proof that the answer is complete (rest.rs, command_e2e.rs), although Exonum could give one. In an election without mixnet the node can hide any vote with its shares and decryption (`C105_same_result_false`); with mixnet it cannot hide votes, but it can add decryptions of an earlier mix if the shares of it are out (`C105_nobody_gets_more_votes_false`).
* C106: the polynomial of a trustee is derived from their key and the id of the election (trustee.rs), but its degree is the threshold in the election transaction. On Exonum anybody can file a changed copy of an election under another id, and the nodes of trustees answer it with a second commitment from the same secret, with a threshold that a stranger chose (`C106_one_commitment_per_election_false`).
* C107: a trustee can file any number of commitments, shares and public keys, and the authority any number of encryption keys and ends of voting, because their `validate_tx` do not compare the id with `build_id` (keygen.rs, voting_end.rs; `C107_trustees_can_flood`, `C107_ledger_size_false`). Mixes are accepted for contests that no ballot has (`C107_mixes_of_contests_false`).
* C108: `vote generate` puts the vote through the shell expansion that is meant for file names (command_vote.rs:31, main.rs:384), so a write-in like `~` or `$HOME` becomes another text, and one with an unknown variable ends the program (`C108_votes_as_typed_false`). `trustee generate` and `authn generate` write over a secret that is in the named file already (`C108_secrets_kept_false`). The message for a missing key asks for `--secret-key`, which is declared as a positional argument (main.rs:26-30).
* C109: in a Borda contest a candidate who wins in two districts can lose when the ballots are counted together (`C109_districts_false`): a place earns more points the more names occur on any ballot, and voters can write in names at will. One voter who writes in a name that nobody else names can thereby make another candidate win (`C109_stray_ballot_false`).
* C110: four reasons for refusing can be untrue. `TrusteeShareMissing` carries the index of the sender, not of the trustee without share (keygen.rs:205; `C110_missing_share_false`). `InvalidAuthThreshold` is given for 256 authenticators with any positive threshold, because their number is cut to a byte (`C110_authenticators_false`). `MixVoteIdsNotSorted` is also given for an ascending list with a repeated id (`C110_ascending_false`). `InvalidUpstreamIndex` is given for every position in a mix of 65536 outputs (`C110_positions_false`).
* C111: Exonum answers every refusal with `VerificationFailed` and prints the reason on the node only (cryptoballot_exonum/src/lib.rs:167-170), so whoever submitted the transaction does not learn it (`C111_exonum_tells_why_false`). Some texts have a stray bracket or misprint ("share is missing)", "not does yet exist", "Frist transaction"); they are modelled as they are.
* C112: as Exonum does not tell the reason (C111), whoever submits a transaction cannot tell a refusal that is final from one that passes. A decryption that fails can become acceptable when a trustee files a second public key (which C107 allows), because the last one by id is used (`C112_passing_reasons_pass`).
* C113: retries are safe and enough only among transactions that do not get in each other's way. The end of voting and a vote do: whoever resends a whole election out of order may lose votes for good, because the end of voting needs nothing but the election and is accepted first.
* C114: only listings that pass end-to-end verification can be carried over; a ledger can hold elections whose listing does not (C59), for example when a vote came in after the first mix. Those can only be rebuilt from the order in which they were accepted, which the nodes' read interface does not show.
* C115: on Sawtooth an announcement replaces any earlier one with its id, also a later one that was meant to replace it: announcements can be replayed, by anybody, at any time (handler.rs:103-120 exempts elections from the check that the id is free, and validating an election does not look at the ledger).
* C116: the end-to-end command does not check that a node shows every id once. Of two transactions with one id the one shown last counts, so that the order of the list decides between them (`C116_any_order_false`).
* Test elections: the code cannot read the elections in `test_elections` any more (`Fixtures.shipped_elections_cannot_be_read`: their contests have no `id`), and `run_tests.bash` there names files and commands that do not exist. In ballot.rs the comments of `SchulzeRatio` and `SchulzeMargin` are interchanged.

## 5. Trusted base

* Lean's kernel and the axioms in section 6.
* That `Verif/Model` says what the Rust code does (section 7), and that `Verif/Spec` and the theorem statements say what the properties say.
* The third-party crates, as far as they are represented by `Env`/`NodeEnv` and the laws named in the statements; `serde_cbor`, `prost`, `indexmap`, `hex` and
  `tallystick` behave as transcribed (their sources are not in the sandbox; the transcription follows their documented behaviour).
* What was done to check the transcription: `test_elections` in the repository holds two elections that the software recorded (one with a mixnet). `Verif/Examples/Fixtures.lean` has them as terms;
  Lean checks that the model accepts them transaction by transaction, builds the same ids, prints the same JSON for transactions without values of cryptographic crates, and that the
  end-to-end command prints the right totals. Outside Lean, a small Ed25519 verifier confirmed the recorded signatures: over exactly the model's CBOR for ends of voting and key generation
  shares, and for all 38 transactions once (a) values of cryptographic crates are written as those crates write them (maps of base64 text; the model has one byte string, or hexadecimal text
  in JSON) and (b) names that changed since the recording are changed back (`rank` for `score`, no `id` in contests). So (a) is the only known difference between the model's bytes and the code's.
* `decide +kernel` is used for concrete examples only; no `native_decide`, no `bv_decide`, no added axioms, no `sorry`.

## 6. Axioms of each property theorem

* no axioms: `C67_new_trustee`
* `propext`: `C50_share_roundtrip`, `Tally.C54_tally_total_false`
* `Quot.sound`, `propext`: `C07_step_ids_collision_free`, `C08_decryption_ids_false`, `C08_decryption_ids_partial`, `C11_sign_then_verify`, `C49_selection_roundtrip`, `C50_decrypt_never_crashes_false`, `C50_decrypt_never_crashes_partial`, `C50_hex_roundtrip`, `C51_new_key_size`, `C51_new_keys`, `C51_new_succeeds`, `Tally.C53_one_ballot_one_vote_partial`, `E2e.C59_query`, `C99_coins_show_the_vote`
* `Classical.choice`, `Quot.sound`, `propext`: `C01_identifier_text_parts`, `C01_identifier_text_roundtrip`, `C02_parse_never_crashes_false`, `C02_parse_partial`, `C03_identifier_order`, `C04_type_scan_exact`, `C05_range_exact`, `C06_memstore_is_map`, `C09_no_type_confusion`, `C10_accepted_means_signed`, `C12_election_acceptance_false`, `C12_election_acceptance_partial`, `C13_trustee_steps_by_trustees`, `C14_shares_cover_trustees`, `C15_encryption_key_unanimous`, `C16_elections_own_their_steps_false`, `C16_elections_own_their_steps_partial`, `C17_no_votes_after_end`, `C18_no_votes_before_key`, `C19_votes_stay_on_ballot`, `C20_authenticator_quorum_false`, `C20_authenticator_quorum_partial`, `C21_no_prefix_collisions_false`, `C21_no_prefix_collisions_partial`, `C22_one_vote_per_contest_false`, `C22_one_vote_per_contest_partial`, `C23_first_mix_covers_votes`, `C24_mix_chain`, `C25_mixing_preserves_votes`, `C26_mix_after_end_false`, `C26_mix_after_end_partial`, `C27_partial_only_after_end`, `C28_partial_is_proven`, `C29_only_fully_mixed_false`, `C29_only_fully_mixed_partial`, `C30_decryption_is_threshold_decryption_partial`, `C30_decryption_of_own_item_false`, `C31_distinct_quorum_false`, `C31_distinct_quorum_partial`, `C32_decryption_unique`, `C33_validation_never_crashes_false`, `C33_validation_never_crashes_partial`, `C34_elections_isolated`, `C34_nodes_isolated`, `C34_submissions_isolated`, `Exonum.C35_exonum_append_only`, `Exonum.C36_filed_under_own_id_false`, `Exonum.C36_filed_under_own_id_partial`, `Exonum.C36_stored_was_validated`, `Exonum.C37_envelope_roundtrip`, `Exonum.C38_exonum_refines_memstore_false`, `Exonum.C38_exonum_refines_memstore_partial`, `Api.C39_prefix_query_exact_false`, `Api.C39_prefix_query_exact_partial`, `E2e.C40_e2e_replays`, `E2e.C41_verified_is_counted_false`, `E2e.C41_verified_is_counted_partial`, `C42_commitment_accepted`, `C42_encryption_key_accepted`, `C42_public_key_accepted`, `C42_share_accepted_false`, `C42_share_accepted_partial`, `C43_encryption_key_when_complete_partial`, `C43_outsiders_silent`, `C43_public_key_when_complete_partial`, `C43_share_when_complete_partial`, `C43_step_complete_false`, `C44_first_mix_accepted_false`, `C44_first_mix_accepted_partial`, `C44_first_mix_contests`, `C44_later_mix_accepted_false`, `C44_later_mix_lacks_only_its_link`, `C44_later_mix_never_accepted`, `C45_mix_partials_distinct_false`, `C45_mix_partials_partial`, `C45_no_contests_false`, `C45_vote_partials_distinct_false`, `C45_vote_partials_partial`, `C46_decryption_accepted`, `C46_decryption_when_quorum`, `C47_bytes_injective`, `C47_forget_harmless`, `C47_roundtrip_exact`, `C47_serialization_roundtrip`, `C48_signing_bytes_bind`, `C50_recipient_reads_share`, `C50_share_of_other_election`, `C51_authentication_genuine`, `C51_blind_authentication`, `C51_no_key_refused`, `C51_package_binding`, `C51_vote_stays_acceptable`, `Tally.C52_plurality_counts`, `Tally.C52_plurality_order_independent`, `Tally.C53_one_ballot_one_vote_false`, `Tally.C54_tally_total_partial`, `Sawtooth.C55_election_replaced_false`, `Sawtooth.C55_sawtooth_immutable_partial`, `Sawtooth.C55_votes_accepted_false`, `C56_any_quorum_decrypts`, `C56_key_generation`, `C56_partial_decryptions_verify`, `C57_decoding_never_crashes_false`, `C57_decoding_never_crashes_partial`, `Exonum.C58_mixing_cannot_be_blocked_false`, `Exonum.C58_mixing_cannot_be_blocked_partial`, `E2e.C59_honest_ledger_verifies_false`, `E2e.C59_honest_ledger_verifies_partial`, `E2e.C59_honest_service_verifies_partial`, `E2e.C60_printed_tally_false`, `E2e.C60_printed_tally_partial`, `Tally.C61_score_and_approval`, `C62_received_can_be_stored`, `Client.C63_election_generate`, `Client.C63_vote_generate_partial`, `Client.C63_vote_names_election_false`, `Client.C63_voting_end_generate`, `Server.C64_envelope_crashes_false`, `Server.C64_node_never_crashes_false`, `Server.C64_node_never_crashes_partial`, `Server.C64_reaction_exact`, `C65_every_trustee_is_needed`, `C65_outsiders_cannot_block_set_up_false`, `C65_set_up_can_be_completed`, `C65_set_up_reactions_succeed`, `C65_settled_network_is_set_up`, `C66_decryptions_are_right`, `C66_decryptions_are_right_false`, `C66_partials_of_honest_votes_crash_nobody`, `C66_tally_can_be_completed`, `C66_votes_are_decrypted`, `C66_votes_crash_nobody_false`, `C67_library_and_node_agree`, `C67_library_and_node_agree_false`, `C67_own_record`, `C67_strangers_crash`, `C68_decryptions_are_right`, `C68_left_out_contest_false`, `C68_tally_can_be_completed_false`, `C68_tally_can_be_completed_partial`, `C68_votes_are_mixed_and_decrypted_partial`, `C68_what_decryptions_take`, `C69_client_elections_are_counted`, `C69_held_elections_verify`, `C69_held_elections_verify_false`, `C69_held_elections_verify_together`, `C70_blocks_count_client_elections`, `C70_blocks_decryptions_are_right`, `C70_blocks_mix_and_decrypt_partial`, `C70_blocks_set_up`, `C70_blocks_verify`, `C70_blocks_verify_together`, `C70_blocks_votes_are_decrypted`, `C70_lost_submissions_are_made_up_for_false`, `C70_reposting_makes_nodes_react`, `C71_client_elections_are_counted`, `C71_elections_are_set_up`, `C71_nodes_come_to_rest`, `C71_votes_are_decrypted`, `C71_votes_are_mixed_and_decrypted_false`, `C71_votes_are_mixed_and_decrypted_partial`, `C72_one_ballot_per_voter_false`, `C72_printed_tally_is_backed`, `C72_verified_decryptions_are_right`, `C72_verified_mixed_votes_count_once_false`, `C72_verified_mixed_votes_count_once_partial`, `C72_verified_votes_count_once`, `C73_left_out_contest_is_never_counted`, `Json.C74_deep_transactions_cannot_be_listed`, `Json.C74_e2e_verifies_the_ledger`, `Json.C74_json_list_roundtrip`, `Json.C74_json_roundtrip`, `Json.C74_json_text_determines`, `Json.C74_printed_list_is_posted`, `Json.C74_printed_transaction_is_posted`, `Json.C74_rest_listing_is_faithful_false`, `Json.C74_rest_listing_is_faithful_partial`, `Json.C74_rest_lookup_is_faithful`, `C75_acceptance_is_stable`, `C75_conflicts_are_real`, `Exonum.C76_order_of_votes_is_irrelevant_false`, `Exonum.C76_order_of_votes_is_irrelevant_partial`, `Exonum.C76_votes_in_any_order_partial`, `C77_depends_on_listed_trustees_partial`, `C77_quorum_is_enough_for_nodes_false`, `C77_spoiler_blocks_decryptions`, `C77_spoiler_blocks_nodes`, `E2e.C78_only_a_quorum_changes_results`, `E2e.C78_results_are_final_false`, `E2e.C78_results_are_final_partial`, `E2e.C78_unlabelled_false`, `C79_ballot_independence_false`, `C79_ballot_independence_partial`, `C79_votes_can_be_copied`, `Cli.C80_development_key`, `Cli.C80_generated_authenticator`, `Cli.C80_generated_authenticator_is_refused`, `Cli.C80_generated_keys_work`, `Cli.C80_generated_transactions_print`, `Cli.C80_generated_trustee`, `Cli.C80_generated_trustees_never_decrypt`, `Cli.C80_get_then_post`, `Cli.C80_given_key_signs`, `Cli.C80_lists_are_posted`, `Cli.C80_printed_is_posted`, `Cli.C80_secret_key_option`, `C81_any_encoding_reads`, `C81_anything_can_be_added`, `C81_decoder_reads_exactly_the_encodings`, `C81_encodings_are_unambiguous`, `C81_every_transaction_can_be_rewritten`, `Exonum.C81_rewriting_changes_nothing`, `Json.C81_text_is_utf8`, `C81_written_is_an_encoding`, `C82_readable_as_one_only_false`, `C82_readable_as_one_only_partial`, `C82_serialization_is_not_signed`, `C82_signed_is_unsigned_and_signature`, `C82_unsigned_roundtrip`, `Exonum.C83_cast_votes_are_filed_partial`, `C83_open_election_takes_votes`, `Exonum.C83_other_elections_cannot_keep_voters_out_false`, `Exonum.C83_strangers_cannot_keep_voters_out_false`, `Tally.C84_borda_points_partial`, `Tally.C84_equal_ranks_equal_points_false`, `Tally.C84_order_is_irrelevant_partial`, `Tally.C85_head_to_head_false`, `Tally.C85_head_to_head_partial`, `E2e.C86_printed_votes`, `E2e.C86_printed_winner_false`, `E2e.C86_printed_winner_partial`, `Exonum.C87_nodes_agree_false`, `Exonum.C87_nodes_agree_partial`, `Sawtooth.C87_sawtooth_nodes_agree`, `C87_verdicts_differ_by_overflow`, `C88_elections_verify_together`, `E2e.C88_other_elections_make_no_difference`, `Client.C88_own_votes_only_false`, `Client.C88_own_votes_only_partial`, `Client.C88_report_despite_others_false`, `Client.C88_report_is_about_election_false`, `Client.C88_report_is_about_election_partial`, `E2e.C89_report_is_unambiguous_false`, `E2e.C89_report_is_unambiguous_partial`, `E2e.C89_report_shows_figures`, `C90_votes_stay_sealed_false`, `C90_votes_stay_sealed_partial`, `C90_what_is_opened_partial`, `C91_shares_only_for_trustees_false`, `C91_shares_only_for_trustees_partial`, `C91_shares_read_votes`, `C91_shares_sent_later_false`, `E2e.C92_contests_apart_false`, `E2e.C92_counted_by_type_false`, `E2e.C92_only_candidates_false`, `E2e.C92_printed_is_the_contest_partial`, `C93_client_elections_are_counted_despite_crashes`, `C93_crashed_nodes_set_up`, `C93_decryptions_are_right_despite_crashes`, `C93_elections_verify_despite_crashes`, `C93_missed_election_is_never_set_up`, `C93_restarted_nodes_catch_up_false`, `C93_votes_are_decrypted_despite_crashes`, `Json.C94_any_file_of_transactions_is_posted`, `Json.C94_any_layout_reads`, `Json.C94_deep_text_is_refused`, `Json.C94_nested_text_is_read`, `Json.C94_printed_is_json`, `Json.C94_reader_reads_exactly_json`, `Json.C94_text_is_unambiguous`, `Json.C94_transaction_text`, `Json.C94_what_a_file_posts`, `C95_accepted_decryption_says_the_plaintext`, `C95_decoder_reads_exactly`, `C95_encoded_selection_says_it`, `C95_later_fields_win`, `C95_one_plaintext_for_each_selection_false`, `C95_plaintext_is_unambiguous`, `C95_plaintexts_can_be_marked`, `C96_authenticators_cannot_link`, `C96_badly_made_keys_false`, `C96_requests_are_equally_likely`, `C96_textbook_signatures_are_blind`, `C97_first_mixes_hide_voters`, `C97_later_mixes_hide_voters`, `C97_textbook_shuffles_mix_perfectly`, `C98_all_signatures_partial`, `C98_anyone_can_stuff_the_box`, `C98_authenticated_votes_false`, `C98_no_more_votes_than_voters_false`, `C98_votes_within_signatures_partial`, `C99_votes_can_be_denied_false`

## 7. What is modelled and what is not

| file in /repo | modelled in | not modelled, simplified |
|---|---|---|
| cryptoballot/src/transaction.rs | Model/Identifier, Types, Crypto, Cbor, Decode, Validate, Unsigned | `Debug`; the `Transaction`/`Signable` traits are functions per type |
| cryptoballot/src/store.rs | Model/Store, MemStore | the `Store` trait is a structure of two functions; `BTreeMap` is an ordered association list |
| cryptoballot/src/election.rs, ballot.rs | Model/Types, Validate | JSON `properties` are the CBOR values that stand for JSON values (`JsonValue`); free-text fields are byte strings |
| cryptoballot/src/keygen.rs, vote.rs, voting_end.rs, mix.rs, decryption.rs | Model/Types, Validate, Selection, Client, Voter | the verifiable shuffle and threshold decryption themselves (parameters; `Examples/ElGamal` and `Examples/Mixing` prove the laws of the textbook schemes) |
| cryptoballot/src/trustee.rs | Model/Trustee | HKDF, X25519, AES-GCM, Pedersen key generation (parameters); randomness is an argument |
| cryptoballot/src/authn.rs | Model/Authn, Types | RSA (parameter with the blind-signature laws; `Examples/Rsa` proves them of textbook blind RSA) |
| cryptoballot/src/tally.rs | Model/Tally, Pairs, Winners | tallystick: totals of plurality, approval, score and Borda as documented; pairs of Condorcet contests are counted by a parameter; Schulze only as far as its preconditions; ranks and winners of Condorcet and Schulze contests |
| serde_cbor 0.11.1: reader and writer | Model/Cbor, Decode (definite and indefinite lengths, all widths, tags, floats in three formats written in the shortest, structs as maps or arrays, `serde_json::Value`) | map keys that are not text; enum variants by number; bignums; cryptographic values of other crates are byte strings |
| cryptoballot/src/serde_hex.rs, util.rs, error.rs | Model/Basic, Cbor, Crypto, Messages | texts of the errors of libraries (parameters) |
| cryptoballot_exonum/src/lib.rs, src/proto/service.proto | Model/Exonum, Wire (submissions and storage as bytes) | Exonum itself: blocks, consensus, merkle proofs, the caller's author key; an execution is one transaction on the map |
| cryptoballot_server/src/tasks.rs | Model/Server | logging |
| cryptoballot_server/src/service.rs | Model/Blocks (envelopes, blocks, `after_commit` one block behind, losses and panics), Model/Crash (nodes that are stopped at any point of the hook and started again), Model/Network (a reaction is one turn of the loop in `after_commit`) | `DEPENDENT_TXS`, which is never filled; a node that panics keeps nothing back and may run later heights; that Exonum does not run the hook of a block again after a restart is assumed |
| cryptoballot_server/src/api.rs | Model/Api, Json | HTTP: an answer is its body, or an error |
| cryptoballot_server/src/main.rs | Model/Cli (the node's key and the line a development node prints) | node start-up and configuration |
| cryptoballot_cli/src/command_{election,vote,voting_end}.rs | Model/Client, Model/Args | HTTP; how clap takes the command line apart |
| cryptoballot_cli/src/command_e2e.rs | Model/E2e, Report, Json, Messages | `winners()` of tallystick and its order of totals (parameters); what is printed before a panic |
| cryptoballot_cli/src/rest.rs, command_post_transaction.rs; JSON of transactions (serde_json 1.0.64 and the derived `Serialize`) | Model/Json, Decode | HTTP; the fresh key that signs Exonum messages; the second of waiting; fractional numbers; cryptographic values of other crates are hex text; duplicate keys in objects as in CBOR |
| cryptoballot_cli/src/{main,command_authn,command_trustee,command_keygen}.rs | Model/Cli, Model/Args | how clap takes the words of the command line apart; what the shell expansion does with `$` and `~` (a parameter); the text of the file with RSA secrets; messages on standard error |
| cryptoballot_sawtooth_tp/src/handler.rs | Model/Sawtooth, Messages | Sawtooth itself: batches, validators |

Other simplifications are stated in the comment of the definition concerned. Time and memory limits are not modelled. A `usize` is an unbounded natural number.
