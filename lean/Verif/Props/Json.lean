import Verif.Lemmas.JsonTx
import Verif.Props.Serialization
import Verif.Props.Api
/-!
# C74: transactions as JSON
-/

namespace CB
namespace Json
open Spec

/-- The unserialized fields of the trustees are zero, as in anything that was read. -/
def trusteesPlain : SignedTx → Bool
  | .election s => s.tx.trustees.all fun t => decide (forgetTrustee t = t)
  | _ => true

theorem forget_plain {t : SignedTx} (h : trusteesPlain t = true) : forget t = t := by
  cases t with
  | election s =>
    simp only [trusteesPlain, List.all_eq_true, decide_eq_true_eq] at h
    have : s.tx.trustees.map forgetTrustee = s.tx.trustees := by
      conv_rhs => rw [← List.map_id s.tx.trustees]
      exact List.map_congr_left h
    simp only [forget, forgetElection, this]
  | _ => rfl

/-! ## Printed and read back -/

theorem readTx_print {t : SignedTx} (L : Layout) (h : JsonFits 127 (ofTx t)) : readTx (printTx L t) = .ok (forget t) := by
  unfold readTx printTx
  rw [parse_write L h]
  exact de_ofTx t

theorem readTxs_print {ts : List SignedTx} (L : Layout) (h : ∀ t ∈ ts, JsonFits 126 (ofTx t)) : readTxs (printTxs L ts) = .ok (ts.map forget) := by
  unfold readTxs printTxs
  rw [parse_write L (jf_list h)]
  exact De.de_array de_ofTx ts

/-- **C74** Printing a signed transaction as JSON, on one line or indented, and reading the text gives the transaction back, whatever its kind and content (up to the two
unserialized trustee fields; the application-specific properties must be such that JSON can carry them). -/
theorem C74_json_roundtrip (t : SignedTx) (L : Layout) (h : RustData t) (hp : JsonProperties 120 t) : readTx (printTx L t) = .ok (forget t) :=
  readTx_print L (jf_ofTx 120 t h hp)

/-- A list of transactions comes back in the same order. -/
theorem C74_json_list_roundtrip (ts : List SignedTx) (L : Layout) (h : ∀ t ∈ ts, RustData t) (hp : ∀ t ∈ ts, JsonProperties 119 t) :
    readTxs (printTxs L ts) = .ok (ts.map forget) :=
  readTxs_print L fun t ht => jf_ofTx 119 t (h t ht) (hp t ht)

/-- Transactions printed alike are alike: the text determines the type, the content and the signature. -/
theorem C74_json_text_determines (t t' : SignedTx) (L L' : Layout) (h : RustData t) (h' : RustData t') (hp : JsonProperties 120 t) (hp' : JsonProperties 120 t')
    (e : printTx L t = printTx L' t') : forget t = forget t' := by
  have h1 := C74_json_roundtrip t L h hp
  rw [e, C74_json_roundtrip t' L' h' hp'] at h1
  exact (Res.ok.inj h1).symm

theorem toy_jsonProperties : ∀ t ∈ Toy.complete, JsonProperties 119 t := by
  have : ∀ t ∈ Toy.complete, (propertiesOf t).all (fun p => p.entries.isEmpty) = true := by decide +kernel
  intro t ht p hp e he
  rw [List.isEmpty_iff.1 (List.all_eq_true.1 (this t ht) p hp)] at he
  cases he

/-- the whole sample election, printed and read -/
example : readTxs (printTxs .pretty Toy.complete) = .ok (Toy.complete.map forget) := C74_json_list_roundtrip _ _ toy_rustData toy_jsonProperties

/-- what a printed transaction looks like -/
example : printTx .compact Toy.endTx = str ("{\"type\":\"voting_end\",\"tx\":{\"id\":\"07070707070707070707070707070707" ++ "00000000000000000000000000000000\"," ++
      "\"election\":\"07070707070707070707070707070701" ++ "00000000000000000000000000000000\"," ++
      "\"authority_public_key\":\"0101010101010101010101010101010101010101010101010101010101010101\"},\"sig\":\"" ++
      "01010101010101010101010101010101010101010101010101010101010101010101010101010101010101010101010101010101010101010101010101010101\"}") := by decide +kernel

/-! ## Files -/

theorem dropWhile_nonws {p : UInt8 → Bool} {w : Bytes} (hw : ∀ b ∈ w, p b = true) {b : UInt8} (hb : p b = false) (bs : Bytes) :
    (w ++ b :: bs).dropWhile p = b :: bs := by
  rw [List.dropWhile_append_of_pos hw, List.dropWhile_cons_of_neg (by simp [hb])]

theorem trim_eq {w w' : Bytes} (hw : ∀ b ∈ w, isWs b = true) (hw' : ∀ b ∈ w', isWs b = true) {b c : UInt8} {m : Bytes}
    (hb : (isWs b || b == 0x0b || b == 0x0c) = false) (hc : (isWs c || c == 0x0b || c == 0x0c) = false) :
    Client.trim (w ++ (b :: (m ++ [c])) ++ w') = b :: (m ++ [c]) := by
  unfold Client.trim
  rw [List.append_assoc, List.cons_append, dropWhile_nonws (fun x hx => by simp [hw x hx]) hb]
  have : (b :: (m ++ [c] ++ w')).reverse = w'.reverse ++ c :: (b :: m).reverse := by simp
  rw [this, dropWhile_nonws (fun x hx => by simp [hw' x (List.mem_reverse.1 hx)]) hc]
  simp

/-- The text of an object or a list begins and ends with its brackets. -/
theorem write_map_ends (L : Layout) (k : Nat) (l : List (Str × Cbor)) : ∃ m, write L k (.map l) = 0x7b :: (m ++ [0x7d]) := by
  rcases l with _ | ⟨⟨n, c⟩, l⟩
  · exact ⟨[], by rw [write]; rfl⟩
  · exact ⟨_, by rw [write]⟩
theorem write_array_ends (L : Layout) (k : Nat) (l : List Cbor) : ∃ m, write L k (.array l) = 0x5b :: (m ++ [0x5d]) := by
  rcases l with _ | ⟨c, l⟩
  · exact ⟨[], by rw [write]; rfl⟩
  · exact ⟨_, by rw [write]⟩

theorem ofTx_map (t : SignedTx) : ∃ l, ofTx t = .map l := by
  cases t <;> exact ⟨_, rfl⟩

/-- what is sent does not depend on what serialization leaves out -/
theorem posted_forget (t : SignedTx) : Client.posted (forget t) = Client.posted t := by
  cases t with
  | election s =>
    have hc : (forgetElection s.tx).toCbor = s.tx.toCbor := by
      have : (s.tx.trustees.map forgetTrustee).map Trustee.toCbor = s.tx.trustees.map Trustee.toCbor := by
        rw [List.map_map]; exact List.map_congr_left fun _ _ => rfl
      simp only [forgetElection, ElectionTx.toCbor, this]
    simp only [Client.posted, Exonum.Envelope.ofTx, Exonum.Envelope.mk.injEq]
    refine ⟨rfl, rfl, ?_⟩
    show (Signed.cborFields ElectionTx.toCbor .election ⟨forgetElection s.tx, s.sig⟩).encode = (Signed.cborFields ElectionTx.toCbor .election s).encode
    simp only [Signed.cborFields, hc]
  | _ => rfl

/-- **C74** A file with a transaction printed by the command line (with any white space around it, such as the final line break) posts exactly that transaction: the
node is sent the same bytes, under the same id and key, as if the original had been sent. -/
theorem C74_printed_transaction_is_posted (t : SignedTx) (L : Layout) (w w' : Bytes) (h : RustData t) (hp : JsonProperties 120 t)
    (hw : ∀ b ∈ w, isWs b = true) (hw' : ∀ b ∈ w', isWs b = true) :
    ∃ u, Client.postFile (w ++ printTx L t ++ w') = .ok [u] ∧ u = forget t ∧ Client.posted u = Client.posted t := by
  refine ⟨forget t, ?_, rfl, ?_⟩
  · obtain ⟨l, hl⟩ := ofTx_map t
    obtain ⟨m, hm⟩ := write_map_ends L 0 l
    have ht : Client.trim (w ++ printTx L t ++ w') = printTx L t := by
      rw [printTx, hl, hm]
      exact trim_eq hw hw' rfl rfl
    unfold Client.postFile
    simp only [ht]
    have hh : (printTx L t).head? ≠ some 0x5b := by rw [printTx, hl, hm]; simp
    rw [if_neg hh, C74_json_roundtrip t L h hp]
    rfl
  · exact posted_forget t

/-- **C74** A file with a list of printed transactions posts all of them, in the order of the list. -/
theorem C74_printed_list_is_posted (ts : List SignedTx) (L : Layout) (w w' : Bytes) (h : ∀ t ∈ ts, RustData t) (hp : ∀ t ∈ ts, JsonProperties 119 t)
    (hw : ∀ b ∈ w, isWs b = true) (hw' : ∀ b ∈ w', isWs b = true) :
    Client.postFile (w ++ printTxs L ts ++ w') = .ok (ts.map forget) := by
  obtain ⟨m, hm⟩ := write_array_ends L 0 (ts.map ofTx)
  have ht : Client.trim (w ++ printTxs L ts ++ w') = printTxs L ts := by
    rw [printTxs, hm]
    exact trim_eq hw hw' rfl rfl
  unfold Client.postFile
  simp only [ht]
  have hh : (printTxs L ts).head? = some 0x5b := by rw [printTxs, hm]; rfl
  rw [if_pos hh, C74_json_list_roundtrip ts L h hp]

/-- a file with the sample election, indented and ending in a line break -/
example : Client.postFile (printTxs .pretty Toy.complete ++ [0x0a]) = .ok (Toy.complete.map forget) := by
  have := C74_printed_list_is_posted Toy.complete .pretty [] [0x0a] toy_rustData toy_jsonProperties (by simp) (by decide)
  simpa using this

/-! ## Over REST -/

theorem rustData_getTx {s : Exonum.Schema} {id : Str} {t : SignedTx} (h : Api.getTx s id = .ok t) : RustData t := by
  unfold Api.getTx at h
  split at h
  · cases h
  · rw [Res.mapErr_eq_ok] at h
    exact rustData_of_fromBytes h

theorem rustData_getAll {s : Exonum.Schema} {p : Option Str} {ts : List SignedTx} (h : Api.getAll s p = .ok ts) : ∀ t ∈ ts, RustData t := by
  unfold Api.getAll at h
  rw [Res.mapM'_eq_ok] at h
  intro t ht
  have : (Res.ok t : Res Api.Error SignedTx) ∈ ts.map Res.ok := List.mem_map.2 ⟨t, ht, rfl⟩
  rw [← h] at this
  obtain ⟨e, _, he⟩ := List.mem_map.1 this
  rw [Res.mapErr_eq_ok] at he
  exact rustData_of_fromBytes he

/-- **C74** What a client reads over REST is what the node's ledger holds: the transaction asked for by its id, … -/
theorem C74_rest_lookup_is_faithful (s : Exonum.Schema) (id : Identifier) (t : SignedTx) (h : Api.getTx s id.toString = .ok t) (hp : JsonProperties 120 t) :
    Client.getTransaction s id = .ok (forget t) := by
  unfold Client.getTransaction
  rw [h]
  exact C74_json_roundtrip t .compact (rustData_getTx h) hp

/-- … and the list of transactions with a prefix, provided that the application-specific properties of all of them nest at most 119 deep (without, see
`C74_rest_listing_is_faithful_false`). -/
theorem C74_rest_listing_is_faithful_partial (s : Exonum.Schema) (p : Str) (ts : List SignedTx) (h : Api.getAll s (some p) = .ok ts) (hp : ∀ t ∈ ts, JsonProperties 119 t) :
    Client.getTransactionsByPrefix s p = .ok (ts.map forget) := by
  unfold Client.getTransactionsByPrefix
  rw [h]
  exact C74_json_list_roundtrip ts .compact (rustData_getAll h) hp

/-- So the verifier of the command line verifies what the node holds.  (`forget t = t` holds of whatever the programs of this code base serialized.) -/
theorem C74_e2e_verifies_the_ledger (E : Env) (s : Exonum.Schema) (id p : Str) (ts : List SignedTx) (hq : E2e.queryPrefix id = .ok p) (h : Api.getAll s (some p) = .ok ts)
    (hp : ∀ t ∈ ts, JsonProperties 119 t) (hf : ∀ t ∈ ts, forget t = t) : Client.e2e E s id = E2e.verify E ts := by
  have hm : ts.map forget = ts := by
    conv_rhs => rw [← List.map_id ts]
    exact List.map_congr_left hf
  unfold Client.e2e
  rw [hq]
  simp only [Res.ok_bind, C74_rest_listing_is_faithful_partial s p ts h hp, hm]

/-- The answer with a transaction nested 127 deep cannot be read by any client, whatever the other transactions are: JSON lists add a level, and serde_json stops there. -/
theorem C74_deep_transactions_cannot_be_listed (s : Exonum.Schema) (p : Str) (ts : List SignedTx) (t : SignedTx) (d : Nat) (h : Api.getAll s (some p) = .ok ts) (ht : t ∈ ts)
    (hp : ∀ u ∈ ts, JsonProperties d u) (hdeep : ¬ JsonFits 126 (ofTx t)) : Client.getTransactionsByPrefix s p = .err .malformed := by
  unfold Client.getTransactionsByPrefix
  rw [h]
  simp only [readTxs, printTxs]
  rw [parse_deep .compact (jf_list fun u hu => jf_ofTx d u (rustData_getAll h u hu) (hp u hu))]
  · rfl
  · intro hn
    cases hn with
    | array hn => exact hdeep (hn _ (List.mem_map.2 ⟨t, ht, rfl⟩))

/-- The verifier against the ledger of the sample election: its hypotheses are met. -/
example : ∃ p ts, E2e.queryPrefix Toy.eid.toString = .ok p ∧ Api.getAll (Exonum.deliverAll Toy.env OMap.empty (Toy.complete.map Exonum.Envelope.ofTx)) (some p) = .ok ts ∧
    (∀ t ∈ ts, JsonProperties 119 t) ∧ ts.length = 19 ∧ ∀ t ∈ ts, forget t = t := by
  have hc : (match Api.getAll (Exonum.deliverAll Toy.env OMap.empty (Toy.complete.map Exonum.Envelope.ofTx)) (some (Toy.eid.toString.take 15)) with
    | .ok ts => ts.length == 19 && ts.all (fun t => (propertiesOf t).all (fun p => p.entries.isEmpty) && trusteesPlain t)
    | _ => false) = true := by decide +kernel
  split at hc
  · rename_i ts hts
    rw [Bool.and_eq_true, List.all_eq_true] at hc
    refine ⟨_, ts, by decide +kernel, hts, ?_, by simpa using hc.1, ?_⟩
    · intro t ht p hp e he
      have := hc.2 t ht
      rw [Bool.and_eq_true] at this
      rw [List.isEmpty_iff.1 (List.all_eq_true.1 this.1 p hp)] at he
      cases he
    · intro t ht
      have := hc.2 t ht
      rw [Bool.and_eq_true] at this
      exact forget_plain this.2
  · cases hc

/-- `n` lists, one inside the other. -/
def nest : Nat → Cbor
  | 0 => .null
  | n + 1 => .array [nest n]

theorem jsonFits_nest {d n : Nat} : JsonFits d (nest n) ↔ n ≤ d := by
  induction n generalizing d with
  | zero => exact ⟨fun _ => Nat.zero_le _, fun _ => .null⟩
  | succ n ih =>
    constructor
    · intro h
      cases h with
      | array h => exact Nat.succ_le_succ (ih.1 (h _ (List.mem_singleton.2 rfl)))
    · intro h
      obtain ⟨d, rfl⟩ : ∃ e, d = e + 1 := ⟨d - 1, by omega⟩
      exact .array fun c hc => by
        rw [List.mem_singleton.1 hc]
        exact ih.2 (by omega)

/-- A stranger's election: an id that begins like the id of the sample election, and a property with a value of 124 lists, one inside the other. -/
def strangersElection : SignedTx :=
  .election ⟨{ Toy.election with
    id := ⟨⟨List.replicate 14 7 ++ [8], rfl⟩, .election, BArr.fill 16 0⟩
    authorityPublic := Toy.key 3
    properties := ⟨[(str "p", ⟨nest 124, by decide +kernel⟩)], by simp⟩ }, Toy.sig 3⟩

/-- the ledger of the sample election, and with the stranger's election after it -/
def before : Exonum.Schema := Exonum.deliverAll Toy.env OMap.empty (Toy.complete.map Exonum.Envelope.ofTx)
def after : Exonum.Schema := Exonum.deliver Toy.env before (Exonum.Envelope.ofTx strangersElection)

theorem ok_of_check {r : Res E2e.Exit MemStore} (h : (match r with | .ok _ => true | _ => false) = true) : ∃ m, r = .ok m := by
  cases r with
  | ok m => exact ⟨m, rfl⟩
  | _ => cases h
theorem panic_of_check {r : Res E2e.Exit MemStore} {p : Panic} (h : (match r with | .panic p => some p | _ => none) = some p) : r = .panic p := by
  cases r with
  | panic q => rw [Option.some.inj h]
  | _ => cases h

theorem verified_before : ∃ m, Client.e2e Toy.env before Toy.eid.toString = .ok m := ok_of_check (by decide +kernel)
theorem unreadable_after : Client.e2e Toy.env after Toy.eid.toString = .panic .unwrapFailed := panic_of_check (by decide +kernel)

theorem after_eq : after = Exonum.deliverAll Toy.env OMap.empty (Toy.complete.map Exonum.Envelope.ofTx ++ [Exonum.Envelope.ofTx strangersElection]) := by
  unfold after before Exonum.deliverAll
  rw [List.foldl_append, List.foldl_cons, List.foldl_nil]

/-- **C74 is false of the code** as far as reading over REST goes: what is on the ledger cannot always be read.  The stranger's election is accepted by every node, shares the
prefix that the verifier asks for with somebody else's election, and is nested as deep as JSON goes — but the answer to the verifier is a list, one level deeper.  From then
on the verifier, which had verified the sample election, panics on it, and will as long as the ledger exists. -/
theorem C74_rest_listing_is_faithful_false : ¬ ∀ (E : Env) (subs : List Exonum.Envelope) (e : Exonum.Envelope) (id : Str) (m : MemStore),
    (∀ e' ∈ e :: subs, ∃ t, e' = Exonum.Envelope.ofTx t) →
    Client.e2e E (Exonum.deliverAll E OMap.empty subs) id = .ok m →
    Client.e2e E (Exonum.deliverAll E OMap.empty (subs ++ [e])) id ≠ .panic .unwrapFailed := by
  intro h
  obtain ⟨m, hm⟩ := verified_before
  have h2 := unreadable_after
  rw [after_eq] at h2
  refine h Toy.env (Toy.complete.map Exonum.Envelope.ofTx) (Exonum.Envelope.ofTx strangersElection) Toy.eid.toString m ?_ hm h2
  intro e' he'
  rcases List.mem_cons.1 he' with rfl | he'
  · exact ⟨_, rfl⟩
  · obtain ⟨t, _, rfl⟩ := List.mem_map.1 he'
    exact ⟨t, rfl⟩

end Json
end CB
