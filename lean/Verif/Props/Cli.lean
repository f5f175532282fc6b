import Verif.Spec.Cli
import Verif.Props.Json
import Verif.Props.Authn
import Verif.Props.Decrypting
import Verif.Props.Server
import Verif.Props.Client
/-!
# C80: the command line
-/

namespace CB
open Spec
namespace Cli

/-! ## Keys -/

theorem parseSecretKey_ok (text : Str) (sk : SecretKey) : parseSecretKey text = .ok sk ↔ KeyText text sk := by
  unfold parseSecretKey KeyText
  rw [← hexDecode_iff]
  cases h : hexDecode text with
  | none => simp
  | some b =>
    obtain ⟨v, hv⟩ := sk
    by_cases hb : b.length = 32
    · simp [hb]
    · simp only [hb, dite_false, reduceCtorEq, Option.some.injEq, false_iff]
      rintro rfl
      exact hb hv

theorem keyText_hex (sk : SecretKey) : KeyText (hexEncode sk.val) sk := (hexDecode_iff _ _).1 (hexDecode_hexEncode _)

/-- **C80** The secret key given to the program is read as hexadecimal text of 32 bytes, and every command goes on with that key; on any other text every command, also one that needs no
key, exits with status 1 before it does anything. -/
theorem C80_secret_key_option (N : NodeEnv) (s : Exonum.Schema) (R : Randomness) (text : Str) (c : Command) :
    (∀ sk, KeyText text sk → run N s R (some text) c = command N s R (some sk) c) ∧
    ((∀ sk, ¬ KeyText text sk) → run N s R (some text) c = .err .invalidSecretKey) := by
  constructor
  · intro sk h
    simp only [run, secretKey, (parseSecretKey_ok text sk).2 h, Res.ok_bind]
  · intro h
    have : parseSecretKey text = .err .invalidSecretKey := by
      cases hp : parseSecretKey text with
      | ok sk => exact absurd ((parseSecretKey_ok _ _).1 hp) (h sk)
      | err e =>
        unfold parseSecretKey at hp
        split at hp
        · cases hp; rfl
        · split at hp <;> cases hp; rfl
      | panic p =>
        unfold parseSecretKey at hp
        split at hp
        · cases hp
        · split at hp <;> cases hp
    simp only [run, secretKey, this]
    rfl

example : KeyText (hexEncode (Toy.key 0xAB).val) (Toy.key 0xAB) ∧ (∀ sk, ¬ KeyText (str "abc") sk) := by
  refine ⟨keyText_hex _, fun sk h => ?_⟩
  have := (hexDecode_iff _ _).2 h
  rw [show hexDecode (str "abc") = none by decide +kernel] at this
  cases this

/-- **C80** The keys that `keygen` prints belong together and can be used: given the printed secret key, the program makes an election whose authority and trustee is the printed public
key. -/
theorem C80_generated_keys_work (N : NodeEnv) (s : Exonum.Schema) (R : Randomness) (o : Output) (h : run N s R none .keygen = .ok o) :
    ∃ secret pub : Str, o.printed = [str "secret-key: " ++ secret, str "public-key: " ++ pub] ∧ o.posted = [] ∧
      ∀ (s' : Exonum.Schema) (R' : Randomness), ∃ (o' : Output) (e : Signed ElectionTx), run N s' R' (some secret) (.electionGenerate true) = .ok o' ∧
        o'.posted = [Client.posted (.election e)] ∧ HexOf pub e.tx.authorityPublic.val ∧ (∀ tr ∈ e.tx.trustees, HexOf pub tr.publicKey.val) ∧ e.tx.id = ElectionTx.buildId R'.election := by
  cases h
  refine ⟨hexEncode R.secret.val, hexEncode (N.edPublic R.secret).val, rfl, rfl, fun s' R' => ?_⟩
  rw [(C80_secret_key_option N s' R' _ _).1 _ (keyText_hex R.secret)]
  refine ⟨emit true (.election ⟨Client.election N R.secret R'.election, N.edSign R.secret (CBTransaction.asBytes (Client.election N R.secret R'.election))⟩),
    ⟨Client.election N R.secret R'.election, N.edSign R.secret (CBTransaction.asBytes (Client.election N R.secret R'.election))⟩, ?_, rfl, ?_, ?_, rfl⟩
  · simp only [command, needKey, Res.ok_bind, Client.electionGenerate]
    rw [Client.sign_eq (by intro k hk; cases hk; rfl)]
    rfl
  · exact (hexDecode_iff _ _).1 (hexDecode_hexEncode _)
  · intro tr htr
    simp only [Client.election, List.mem_singleton] at htr
    subst htr
    exact (hexDecode_iff _ _).1 (hexDecode_hexEncode _)

/-- randomness for the samples -/
def toyR (k : UInt8) : Randomness := ⟨Toy.key k, Toy.eid.electionId, BArr.fill 16 9, fun _ => some ⟨[5]⟩, Toy.rng, ⟨fun t => t, fun t => t.map (·.1)⟩⟩

example : ∃ o, run Toy.node OMap.empty (toyR 7) none .keygen = .ok o := ⟨_, rfl⟩

theorem hexEncode_take (b : Bytes) (n : Nat) : (hexEncode b).take (2 * n) = hexEncode (b.take n) := by
  induction b generalizing n with
  | nil => simp [hexEncode]
  | cons x xs ih =>
    cases n with
    | zero => simp [hexEncode]
    | succ n =>
      rw [List.take_succ_cons, hexEncode, hexEncode, ← ih n, show 2 * (n + 1) = 2 * n + 1 + 1 by omega]
      rfl

/-- **C80** The key that a development node prints is the one it signs with as a trustee: given to the command line, elections made with it name the node as their trustee. -/
theorem C80_development_key (keypair : BArr 64) :
    ∃ text, Server.devLine keypair = str "CRYPTOBALLOT_SECRET_KEY=" ++ text ∧ KeyText text (Server.serviceSecret keypair) := by
  refine ⟨(hexEncode keypair.val).take 64, rfl, ?_⟩
  rw [hexEncode_take keypair.val 32]
  exact keyText_hex (Server.serviceSecret keypair)

example : ∃ keypair : BArr 64, (Server.serviceSecret keypair) = Toy.key 3 := ⟨⟨List.replicate 64 3, by simp⟩, by decide +kernel⟩

/-! ## Printing and posting -/

/-- **C80** A command that makes a transaction prints the same transaction with and without `--post`; with it, it posts what it prints; and posting the printed text later, from a file
(with white space around it), sends the node exactly the same. -/
theorem C80_printed_is_posted (N : NodeEnv) (s s' : Exonum.Schema) (R R' : Randomness) (key : Option Str) (c c' : Command) (hc : WithPost c c') (o : Output) (h : run N s R key c = .ok o) :
    ∃ t, o.printed = [Json.printTx .pretty t] ∧ o.posted = [] ∧
      (∃ o', run N s R key c' = .ok o' ∧ o'.printed = o.printed ∧ o'.posted = [Client.posted t]) ∧
      (RustData t → JsonProperties 120 t → ∀ w w' : Bytes, (∀ b ∈ w, Json.isWs b = true) → (∀ b ∈ w', Json.isWs b = true) →
        ∃ o', run N s' R' none (.post (w ++ Json.printTx .pretty t ++ w')) = .ok o' ∧ o'.posted = [Client.posted t]) := by
  obtain ⟨sk, hk, hcmd⟩ := Res.bind_eq_ok.1 h
  have hrun : ∀ c, run N s R key c = command N s R sk c := by
    intro c
    unfold run
    rw [hk]
    rfl
  have key : ∃ t, o = emit false t ∧ run N s R key c' = .ok (emit true t) := by
    rw [hrun]
    cases hc with
    | election =>
      obtain ⟨k, h1, h2⟩ := Res.bind_eq_ok.1 hcmd
      obtain ⟨t, h3, h4⟩ := Res.bind_eq_ok.1 h2
      cases h4
      refine ⟨t, rfl, ?_⟩
      simp only [command, h1, Res.ok_bind, h3]
    | vote id text =>
      obtain ⟨t, h3, h4⟩ := Res.bind_eq_ok.1 hcmd
      cases h4
      refine ⟨t, rfl, ?_⟩
      simp only [command, Res.ok_bind, h3]
    | votingEnd id =>
      obtain ⟨k, h1, h2⟩ := Res.bind_eq_ok.1 hcmd
      obtain ⟨t, h3, h4⟩ := Res.bind_eq_ok.1 h2
      cases h4
      refine ⟨t, rfl, ?_⟩
      simp only [command, h1, Res.ok_bind, h3]
  obtain ⟨t, rfl, ht⟩ := key
  refine ⟨t, rfl, rfl, ⟨_, ht, rfl, rfl⟩, fun hr hp w w' hw hw' => ?_⟩
  obtain ⟨u, hu, _, hpost⟩ := Json.C74_printed_transaction_is_posted t .pretty w w' hr hp hw hw'
  refine ⟨{ posted := [Client.posted u] }, ?_, by rw [hpost]⟩
  simp only [run, secretKey, Res.ok_bind, command, hu]
  rfl

/-- **C80** Commands that make transactions make them with the key that was given.  Without a key, elections and ends of voting are not made, and a vote is made with a new key. -/
theorem C80_given_key_signs (N : NodeEnv) (s : Exonum.Schema) (R : Randomness) (c : Command) (hc : Makes c) :
    (∀ text sk o, KeyText text sk → run N s R (some text) c = .ok o → ∃ t, o.printed = [Json.printTx .pretty t] ∧ MadeWith (N.edPublic sk) t) ∧
    ((∀ id text post, c ≠ .voteGenerate id text post) → run N s R none c = .err .missingSecretKey) ∧
    (∀ id text post o, c = .voteGenerate id text post → run N s R none c = .ok o → ∃ t, o.printed = [Json.printTx .pretty t] ∧ MadeWith (N.edPublic R.secret) t) := by
  have hvote : ∀ sk id text t, Client.voteGenerate N sk R.rng (lookup s) id text = .ok t → MadeWith (N.edPublic sk) t := by
    intro sk id text t h
    obtain ⟨_, _, h⟩ := Res.bind_eq_ok.1 h
    obtain ⟨_, _, h⟩ := Res.bind_eq_ok.1 h
    obtain ⟨_, _, h⟩ := Res.bind_eq_ok.1 h
    obtain ⟨v, hv, h⟩ := Res.bind_eq_ok.1 h
    cases h
    rw [Client.sign_eq (by intro k hk; cases hk; rfl)] at hv
    cases hv
    rfl
  have hun : ∀ {ε α : Type} {x : Res ε α} {a : α}, unwrap x = .ok a → x = .ok a := by
    intro ε α x a h
    cases x <;> cases h
    rfl
  refine ⟨fun text sk o hk h => ?_, fun hne => ?_, ?_⟩
  · rw [(C80_secret_key_option N s R text c).1 sk hk] at h
    cases hc with
    | election post =>
      simp only [command, needKey, Res.ok_bind] at h
      obtain ⟨t, ht, h⟩ := Res.bind_eq_ok.1 h
      cases h
      refine ⟨t, rfl, ?_⟩
      simp only [Client.electionGenerate] at ht
      rw [Client.sign_eq (by intro k hk; cases hk; rfl)] at ht
      cases ht
      rfl
    | vote id v post =>
      obtain ⟨t, ht, h⟩ := Res.bind_eq_ok.1 h
      cases h
      exact ⟨t, rfl, hvote _ _ _ _ (hun ht)⟩
    | votingEnd id post =>
      simp only [command, needKey, Res.ok_bind] at h
      obtain ⟨t, ht, h⟩ := Res.bind_eq_ok.1 h
      cases h
      refine ⟨t, rfl, ?_⟩
      obtain ⟨i, _, ht⟩ := Res.bind_eq_ok.1 ht
      rw [Client.sign_eq (by intro k hk; cases hk; rfl)] at ht
      cases ht
      rfl
  · cases hc with
    | vote id v post => exact absurd rfl (hne id v post)
    | _ => rfl
  · rintro id v post o rfl h
    simp only [run, secretKey, Res.ok_bind, command] at h
    obtain ⟨t, ht, h⟩ := Res.bind_eq_ok.1 h
    cases h
    exact ⟨t, rfl, hvote _ _ _ _ (hun ht)⟩

example : ∃ o, run Toy.node OMap.empty (toyR 7) (some (hexEncode (Toy.key 3).val)) (.electionGenerate false) = .ok o := by
  rw [(C80_secret_key_option Toy.node _ _ _ _).1 _ (keyText_hex (Toy.key 3))]
  simp only [command, needKey, Res.ok_bind, Client.electionGenerate]
  rw [Client.sign_eq (by intro k hk; cases hk; rfl)]
  exact ⟨_, rfl⟩

/-- **C80** A file with a list of printed transactions is posted completely, in the order of the list. -/
theorem C80_lists_are_posted (N : NodeEnv) (s : Exonum.Schema) (R : Randomness) (ts : List SignedTx) (L : Json.Layout) (w w' : Bytes) (h : ∀ t ∈ ts, RustData t)
    (hp : ∀ t ∈ ts, JsonProperties 119 t) (hw : ∀ b ∈ w, Json.isWs b = true) (hw' : ∀ b ∈ w', Json.isWs b = true) :
    ∃ o, run N s R none (.post (w ++ Json.printTxs L ts ++ w')) = .ok o ∧ o.posted = ts.map Client.posted := by
  refine ⟨{ posted := (ts.map forget).map Client.posted }, ?_, ?_⟩
  · simp only [run, secretKey, Res.ok_bind, command, Json.C74_printed_list_is_posted ts L w w' h hp hw hw']
  · rw [List.map_map]
    exact List.map_congr_left fun t _ => Json.posted_forget t

example : ∃ o, run Toy.node OMap.empty (toyR 7) none (.post (Json.printTxs .pretty Toy.complete)) = .ok o ∧ o.posted.length = 19 := by
  obtain ⟨o, h, ho⟩ := C80_lists_are_posted Toy.node OMap.empty (toyR 7) Toy.complete .pretty [] [] toy_rustData Json.toy_jsonProperties (by simp) (by simp)
  exact ⟨o, by simpa using h, by rw [ho, List.length_map]; decide +kernel⟩

theorem fits_key {d : Nat} {n : Nat} (k : BArr n) (h : n < 2 ^ 64) : Fits d (.bytes k.val) := .bytes (by rw [k.property]; exact h)
theorem fits_ident {d : Nat} (i : Identifier) : Fits d (.ident i) := .text (isText_hexEncode (by rw [Identifier.toArray_length]; decide))

theorem fits_signed {T : Type} {w : T → Cbor} {s : Signed T} {d : Nat} (ty : TxType) (h : Fits d (w s.tx)) : Fits (d + 1) (s.cborFields w ty) := by
  refine De.fits_map [str "type", str "tx", str "sig"] rfl (by decide +kernel) (by simp) ?_
  simp only [List.forall_mem_cons]
  refine ⟨.text ?_, h, fits_key _ (by decide), by simp⟩
  cases ty <;> exact ⟨by decide +kernel, by decide +kernel⟩

/-- **C80** The conditions on the transaction hold of every election and every end of voting that the program makes. -/
theorem C80_generated_transactions_print (N : NodeEnv) (sk : SecretKey) (eid : BArr 15) (id : Str) (t : SignedTx)
    (h : Client.electionGenerate (ε := Exit) N sk eid = .ok t ∨ Client.votingEndGenerate (ε := Exit) N sk id = .ok t) : RustData t ∧ JsonProperties 120 t := by
  rcases h with h | h
  · unfold Client.electionGenerate at h
    rw [Client.sign_eq (by intro k hk; cases hk; rfl)] at h
    cases h
    refine ⟨fits_signed (d := 126) .election ?_, ?_⟩
    · refine De.fits_map [str "id", str "authority_public", str "trustees", str "trustees_threshold", str "authenticators", str "authenticators_threshold", str "mix_config", str "ballots", str "contests", str "properties"] rfl (by decide +kernel) (by simp) ?_
      simp only [List.forall_mem_cons]
      refine ⟨fits_ident _, fits_key _ (by decide), ?_, .uint, ?_, .uint, ?_, ?_, ?_, ?_, by simp⟩
      · refine .array (by simp [Client.election]) ?_
        simp only [Client.election, List.map_cons, List.map_nil, List.forall_mem_cons]
        refine ⟨De.fits_map [str "public_key", str "index"] rfl (by decide +kernel) (by simp) ?_, by simp⟩
        simp only [List.forall_mem_cons]
        exact ⟨fits_key _ (by decide), .uint, by simp⟩
      · exact .array (by simp [Client.election, ElectionTx.new]) (by simp [Client.election, ElectionTx.new])
      · refine De.fits_map [str "timeout_secs", str "batch_size"] rfl (by decide +kernel) (by simp) ?_
        simp only [List.forall_mem_cons]
        exact ⟨.uint, .null, by simp⟩
      · refine .array (by simp [Client.election]) ?_
        simp only [Client.election, List.map_cons, List.map_nil, List.forall_mem_cons]
        refine ⟨De.fits_map [str "id", str "contests"] rfl (by decide +kernel) (by decide +kernel) ?_, by simp⟩
        rw [show Cbor.propsField (IndexMap.empty : Properties) = [] from rfl, List.append_nil]
        simp only [List.forall_mem_cons]
        exact ⟨.text ⟨by decide +kernel, by decide +kernel⟩, .array (by decide) (by simp only [List.map_cons, List.map_nil, List.forall_mem_cons]; exact ⟨.uint, by simp⟩), by simp⟩
      · refine .array (by simp [Client.election]) ?_
        simp only [Client.election, List.map_cons, List.map_nil, List.forall_mem_cons]
        refine ⟨De.fits_map [str "id", str "index", str "contest_type", str "num_winners", str "write_in", str "candidates"] rfl (by decide +kernel) (by decide +kernel) ?_, by simp⟩
        rw [show Cbor.propsField (IndexMap.empty : Properties) = [] from rfl, List.append_nil]
        simp only [List.forall_mem_cons]
        exact ⟨.text ⟨by decide +kernel, by decide +kernel⟩, .uint, .text ⟨by decide +kernel, by decide +kernel⟩, .uint, .bool, .array (by decide) (by simp), by simp⟩
      · exact .map (by simp [Client.election, ElectionTx.new, IndexMap.empty]) (by intro e he; cases he) (by intro e he; cases he)
    · intro p hp e he
      simp only [propertiesOf, Client.election, ElectionTx.new, List.map_cons, List.map_nil, List.flatMap_cons, List.flatMap_nil, List.append_nil, List.cons_append, List.nil_append,
        List.mem_cons, List.not_mem_nil, or_false, or_self] at hp
      subst hp
      cases he
  · unfold Client.votingEndGenerate at h
    obtain ⟨i, _, h⟩ := Res.bind_eq_ok.1 h
    rw [Client.sign_eq (by intro k hk; cases hk; rfl)] at h
    cases h
    refine ⟨fits_signed (d := 126) .votingEnd ?_, fun p hp => by cases hp⟩
    refine De.fits_map [str "id", str "election", str "authority_public_key"] rfl (by decide +kernel) (by simp) ?_
    simp only [List.forall_mem_cons]
    exact ⟨fits_ident _, fits_ident _, fits_key _ (by decide), by simp⟩

/-- the flag in question, for an election and for the end of it -/
example : ∃ o o', run Toy.node OMap.empty (toyR 7) (some (hexEncode (Toy.key 1).val)) (.electionGenerate false) = .ok o ∧
    run Toy.node OMap.empty (toyR 7) (some (hexEncode (Toy.key 1).val)) (.votingEndGenerate Toy.eid.toString false) = .ok o' := by
  simp only [(C80_secret_key_option Toy.node OMap.empty (toyR 7) _ _).1 _ (keyText_hex (Toy.key 1))]
  exact ⟨_, _, rfl, rfl⟩

theorem forget_forget (t : SignedTx) : forget (forget t) = forget t := by
  cases t with
  | election s =>
    simp only [forget, forgetElection, List.map_map]
    rfl
  | _ => rfl
theorem rustData_forget {t : SignedTx} (h : RustData t) : RustData (forget t) := by
  cases t with
  | election s =>
    have : (s.tx.trustees.map forgetTrustee).map Trustee.toCbor = s.tx.trustees.map Trustee.toCbor := by
      rw [List.map_map]; exact List.map_congr_left fun _ _ => rfl
    have hc : (forgetElection s.tx).toCbor = s.tx.toCbor := by simp only [forgetElection, ElectionTx.toCbor, this]
    have : (forget (.election s)).toCbor = (SignedTx.election s).toCbor := by
      show (Signed.cborFields ElectionTx.toCbor .election ⟨forgetElection s.tx, s.sig⟩) = (Signed.cborFields ElectionTx.toCbor .election s)
      simp only [Signed.cborFields, hc]
    unfold RustData
    rw [this]
    exact h
  | _ => exact h
theorem jsonProperties_forget {d : Nat} {t : SignedTx} (h : JsonProperties d t) : JsonProperties d (forget t) := by
  cases t <;> exact h

/-- **C80** What `get` prints is the transaction that the node holds under the id; posted from a file, to any node, it is sent as it was. -/
theorem C80_get_then_post (N : NodeEnv) (s : Exonum.Schema) (R : Randomness) (id : Identifier) (pretty : Bool) (t : SignedTx)
    (ht : Exonum.getTransaction s id = some t) (hp : JsonProperties 120 t) :
    ∃ o text, run N s R none (.get id.toString pretty) = .ok o ∧ o.printed = [text] ∧ o.posted = [] ∧ Json.readTx text = .ok (forget t) ∧
      ∀ (s' : Exonum.Schema) (R' : Randomness), ∃ o', run N s' R' none (.post (text ++ [0x0a])) = .ok o' ∧ o'.posted = [Client.posted t] := by
  obtain ⟨e, he, hd⟩ := Exonum.getTransaction_eq_some.1 ht
  have hg : Api.getTx s id.toString = .ok t := by
    unfold Api.getTx
    rw [he]
    show Res.mapErr _ (SignedTx.fromBytes e.data) = _
    rw [hd]
    rfl
  have hr := rustData_forget (Json.rustData_getTx hg)
  have hp' := jsonProperties_forget hp
  refine ⟨{ printed := [Json.printTx (if pretty then .pretty else .compact) (forget t)] }, _, ?_, rfl, rfl, ?_, fun s' R' => ?_⟩
  · simp only [run, secretKey, Res.ok_bind, command, get, show Identifier.fromStr id.toString = .ok id from Identifier.fromStr_of_decode (hexDecode_hexEncode _), unwrap, Json.C74_rest_lookup_is_faithful s id t hg hp]
  · rw [Json.C74_json_roundtrip _ _ hr hp', forget_forget]
  · obtain ⟨u, hu, rfl, _⟩ := Json.C74_printed_transaction_is_posted (forget t) (if pretty then .pretty else .compact) [] [0x0a] hr hp' (by simp) (by decide)
    obtain ⟨v, _, rfl, hv⟩ := Json.C74_printed_transaction_is_posted t .compact [] [] (Json.rustData_getTx hg) hp (by simp) (by simp)
    refine ⟨{ posted := [Client.posted (forget (forget t))] }, ?_, by rw [forget_forget, hv]⟩
    simp only [List.nil_append] at hu
    simp only [run, secretKey, Res.ok_bind, command, hu]
    rfl

example : ∃ t, Exonum.getTransaction Json.before Toy.eid = some t ∧ JsonProperties 120 t := by
  have hc : (match Exonum.getTransaction Json.before Toy.eid with
    | some t => (propertiesOf t).all (fun p => p.entries.isEmpty)
    | none => false) = true := by decide +kernel
  split at hc
  · rename_i t ht
    refine ⟨t, ht, fun p hp e he => ?_⟩
    rw [List.isEmpty_iff.1 (List.all_eq_true.1 hc p hp)] at he
    cases he
  · cases hc

/-! ## Trustees and authenticators -/

/-- **C80** A generated trustee: the file holds the secret key, as the program reads it, of the key in the printed trustee; its index is 1. -/
theorem C80_generated_trustee (N : NodeEnv) (s : Exonum.Schema) (R : Randomness) :
    ∃ o file text, run N s R none .trusteeGenerate = .ok o ∧ o.file = some file ∧ o.printed = [text] ∧ o.posted = [] ∧ KeyText file R.secret ∧
      readTrustee text = .ok ⟨N.edPublic R.secret, 1, 0, 0⟩ := by
  refine ⟨_, hexEncode R.secret.val, _, rfl, rfl, rfl, rfl, keyText_hex _, ?_⟩
  unfold readTrustee
  rw [Json.parse_write .pretty (Json.jf_trustee 126 _) 0]
  exact Json.de_trustee _

/-- **C80** Trustees generated by the program cannot be put together in an election that needs two of them: whatever anybody does, no vote in it is ever decrypted. -/
theorem C80_generated_trustees_never_decrypt (N : NodeEnv) (hq : NeedsQuorum N.toEnv) (m : MemStore) (hm : Ledger N.toEnv m) (e : ElectionTx) (he : ElectionAt m.toStore e.id e)
    (hth : 2 ≤ e.trusteesThreshold.toNat)
    (hgen : ∀ tr ∈ e.trustees, ∃ s R o text, run N s R none .trusteeGenerate = .ok o ∧ o.printed = [text] ∧ readTrustee text = .ok tr)
    (d : Signed DecryptionTx) (hd : d.tx.electionId = e.id) (hne : d.tx.decryptedVote ≠ []) : (SignedTx.decryption d).validate N.toEnv m.toStore ≠ .ok () := by
  intro hv
  obtain ⟨e', he', ⟨is, hnd, hlen, his⟩, _⟩ := C31_distinct_quorum_partial N.toEnv hq m hm d.tx d.sig hv hne
  obtain ⟨sg, he⟩ := he
  obtain ⟨sg', he'⟩ := he'
  rw [hd, he] at he'
  cases he'
  have h1 : ∀ i ∈ is, i = 1 := by
    intro i hi
    obtain ⟨_, ⟨tr, htr, rfl⟩, _⟩ := his i hi
    obtain ⟨s, R, o, text, ho, ht, hr⟩ := hgen tr htr
    obtain ⟨o', file, text', ho', _, ht', _, _, hr'⟩ := C80_generated_trustee N s R
    rw [ho] at ho'
    cases ho'
    rw [ht] at ht'
    cases ht'
    rw [hr] at hr'
    cases hr'
    rfl
  match is, hnd, hlen, h1 with
  | [], _, hlen, _ => simp at hlen; omega
  | [_], _, hlen, _ => simp at hlen; omega
  | a :: b :: r, hnd, _, h1 =>
    have ha := h1 a (by simp)
    have hb := h1 b (by simp)
    subst ha
    rw [hb] at hnd
    simp at hnd

/-- an election with two generated trustees, both of which have to take part -/
def togetherElection : ElectionTx := { Toy.election with trustees := [⟨Toy.key 11, 1, 0, 0⟩, ⟨Toy.key 12, 1, 0, 0⟩] }
def togetherTx : SignedTx := .election ⟨togetherElection, Toy.sig 1⟩

example : NeedsQuorum Toy.node.toEnv ∧ Ledger Toy.node.toEnv (MemStore.ofList [togetherTx]) ∧ ElectionAt (MemStore.ofList [togetherTx]).toStore togetherElection.id togetherElection ∧
    2 ≤ togetherElection.trusteesThreshold.toNat ∧ togetherElection.trustees.length = 2 ∧
    ∀ tr ∈ togetherElection.trustees, ∃ s R o text, run Toy.node s R none .trusteeGenerate = .ok o ∧ o.printed = [text] ∧ readTrustee text = .ok tr := by
  refine ⟨toy_needsQuorum true, ledger_of_run (by decide +kernel), ⟨Toy.sig 1, rfl⟩, by decide +kernel, rfl, ?_⟩
  have gen : ∀ k, ∃ s R o text, run Toy.node s R none .trusteeGenerate = .ok o ∧ o.printed = [text] ∧ readTrustee text = .ok ⟨Toy.key k, 1, 0, 0⟩ := by
    intro k
    obtain ⟨o, _, text, h1, _, h2, _, _, h3⟩ := C80_generated_trustee Toy.node OMap.empty (toyR k)
    exact ⟨_, _, o, text, h1, h2, h3⟩
  simp only [togetherElection, List.forall_mem_cons]
  exact ⟨gen 11, gen 12, by simp⟩

/-- **C80** A generated authenticator has the secret of the key it publishes for the ballot "TEST", and no key for any other ballot: a signature for another ballot is refused, … -/
theorem C80_generated_authenticator (N : NodeEnv) (R : Randomness) (keysize : Nat) (au : Authenticator) (secrets : IndexMap Str RsaPrivateKey)
    (h : authnGenerate N R keysize = .ok (au, secrets)) :
    au.id = R.uuid ∧ (∃ sk, secrets.get (str "TEST") = some sk ∧ au.publicKeys.get (str "TEST") = some (N.rsaPublic sk)) ∧
    ∀ ballot, ballot ≠ str "TEST" → secrets.get ballot = none ∧ ∀ election key sig, au.verify N.toEnv election ballot key sig = .err .ballotDoesNotExist := by
  unfold authnGenerate unwrap at h
  split at h
  · rename_i r hr
    cases h
    obtain ⟨h1, h2, h3⟩ := C51_new_keys _ _ _ _ _ _ _ hr
    refine ⟨h1, h2 _ (by simp), fun b hb => ?_⟩
    obtain ⟨h4, h5⟩ := h3 b (by simpa using hb)
    refine ⟨h4, fun el k sig => C51_no_key_refused _ _ _ _ _ _ fun k' hk' => ?_⟩
    rw [(IndexMap.get_eq_some _ _ _).2 hk'] at h5
    cases h5
  · cases h
  · cases h

/-- … so it cannot authenticate a vote for the ballot of the elections that the program generates: put into such an election, a vote that carries its authentication is refused,
whatever the signature. -/
theorem C80_generated_authenticator_is_refused (N : NodeEnv) (R : Randomness) (keysize : Nat) (au : Authenticator) (secrets : IndexMap Str RsaPrivateKey)
    (h : authnGenerate N R keysize = .ok (au, secrets)) (S : Store) (e : ElectionTx) (he : ElectionAt S e.id e) (hids : (e.authenticators.map (·.id)).Nodup) (hau : au ∈ e.authenticators)
    (v : Signed VoteTx) (hel : v.tx.election = e.id) (hb : v.tx.ballotId = str "BALLOT1") (ha : ∃ a ∈ v.tx.authentication, a.authenticator = au.id) :
    (SignedTx.vote v).validate N.toEnv S ≠ .ok () := by
  intro hv
  obtain ⟨_, _, hv⟩ := SignedTx.validate_ok.1 hv
  obtain ⟨_, e', ⟨sg', he'⟩, _, _, _, hall, _⟩ := (VoteTx.validateTx_ok_store (v := v.tx)).1 hv
  obtain ⟨sg, he⟩ := he
  rw [hel, he] at he'
  cases he'
  obtain ⟨a, ham, haid⟩ := ha
  obtain ⟨au', hau', hver⟩ := hall a ham
  rw [haid, getAuthenticator_of_mem hau hids] at hau'
  cases hau'
  rw [(C80_generated_authenticator N R keysize au secrets h).2.2 _ (by rw [hb]; decide +kernel) |>.2] at hver
  cases hver

/-- a generated authenticator, and an election and a vote that meet the hypotheses -/
def toyAuthn : Authenticator := ⟨BArr.fill 16 9, ⟨[(str "TEST", Toy.node.rsaPublic ⟨[5]⟩)], by simp⟩⟩
def authnElection : ElectionTx := { Toy.election with authenticators := [toyAuthn], ballots := [⟨str "BALLOT1", [0], .empty⟩] }
def authnStore : MemStore := MemStore.ofList [.election ⟨authnElection, Toy.sig 1⟩]
example : (∃ secrets, authnGenerate Toy.node (toyR 7) 2048 = .ok (toyAuthn, secrets)) ∧ ElectionAt authnStore.toStore authnElection.id authnElection ∧
    (authnElection.authenticators.map (·.id)).Nodup ∧ toyAuthn ∈ authnElection.authenticators :=
  ⟨⟨_, rfl⟩, ⟨Toy.sig 1, rfl⟩, by decide +kernel, by simp [authnElection]⟩

end Cli
end CB
