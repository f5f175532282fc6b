import Verif.Spec.Args
import Verif.Props.Cli
import Verif.Lemmas.JsonText
/-!
# C108: what the program does with its arguments
-/

namespace CB
open Spec
namespace Cli

theorem expand_plain {W : World} (hW : ExpandsLikeAShell W) {text : Str} (h : Plain text) : expand W text = .ok text := by
  unfold expand
  rw [hW text h]

theorem parseUsize_decimal {text : Str} {n : Nat} (h : Decimal text n) (hn : n < 2 ^ 64) : parseUsize text = some n := by
  obtain ⟨hd, hne, -, rfl⟩ := Json.of_decimal h
  have hh : (if text.head? = some 43 then text.tail else text) = text :=
    if_neg fun h => absurd (hd _ (List.mem_of_mem_head? h)) (by decide)
  unfold parseUsize
  simp only [hh]
  rw [if_pos ⟨hne, List.all_eq_true.2 hd, hn⟩]

theorem setting_uri {W : World} {a : Arguments} {u : Option Str} (h : Setting W (str "CRYPTOBALLOT_URI") a.uri u) : nodeUri W a = u.getD (str "http://localhost:8080") := by
  unfold nodeUri
  generalize a.uri = g at h
  cases h with
  | given => rfl
  | environment h => simp only [h]
  | unset h => simp only [h]

theorem setting_key {W : World} {a : Arguments} {k : Option Str} (h : Setting W (str "CRYPTOBALLOT_SECRET_KEY") a.secretKey k) : keyArgument W a = k := by
  unfold keyArgument
  generalize a.secretKey = g at h
  cases h with
  | given => rfl
  | environment h => simp only [h]
  | unset h => simp only [h]

theorem command_of_needKey {N : NodeEnv} {s : Exonum.Schema} {R : Randomness} {id : Str} {p : Bool} :
    command N s R none (.votingEndGenerate id p) = .err .missingSecretKey := rfl

/-- **C108 (partial)** A run does what was typed: with the node and the key given on the command line, or else by the environment, or else the node on this computer and no key, it runs
the command with the arguments as they were typed, and writes to the file that was typed.  Missing: arguments with a dollar sign in them or a tilde in front, see
`C108_votes_as_typed_false`. -/
theorem C108_as_typed_partial (N : NodeEnv) (nodes : Str → Exonum.Schema) (R : Randomness) (W : World) (hW : ExpandsLikeAShell W) (a : Arguments) (sub : Subcommand) (hsub : a.sub = some sub)
    (hplain : ∀ t ∈ textsOf sub, Plain t) (c : Command) (location : Option Str) (hc : Asked W.file sub c location) (hw : ∀ l, location = some l → W.writable l = true)
    (uri key : Option Str) (hu : Setting W (str "CRYPTOBALLOT_URI") a.uri uri) (hk : Setting W (str "CRYPTOBALLOT_SECRET_KEY") a.secretKey key) :
    main N nodes R W a = (Res.mapErr .command (run N (nodes (uri.getD (str "http://localhost:8080"))) R key c)).bind fun out => .ok ⟨out, location⟩ := by
  unfold main run
  rw [setting_uri hu, setting_key hk, hsub]
  cases secretKey key with
  | err e => rfl
  | panic p => rfl
  | ok sk =>
    have hs : ∀ out, save W location out = .ok ⟨out, location⟩ := by
      intro out
      cases location with
      | none => rfl
      | some l => simp only [save, hw l rfl, if_true]
    have hx : ∀ t ∈ textsOf sub, expand W t = .ok t := fun t ht => expand_plain hW (hplain t ht)
    have hr : (∃ id p, sub = .votingEndGenerate id p ∧ sk = none) ∨ resolve W sk sub = .ok (c, location) := by
      cases hc with
      | post h => exact .inr (by simp only [resolve, hx _ (List.mem_singleton_self _), Res.ok_bind, h])
      | keygen => exact .inr rfl
      | sign => exact .inr rfl
      | get => exact .inr rfl
      | tally => exact .inr rfl
      | e2e => exact .inr (by simp only [resolve, hx _ (List.mem_singleton_self _), Res.ok_bind])
      | trustee => exact .inr (by simp only [resolve, hx _ (List.mem_singleton_self _), Res.ok_bind])
      | authnDefault =>
        exact .inr (by simp only [resolve, hx _ (List.mem_singleton_self _), Res.ok_bind, Option.getD, show parseUsize (str "4096") = some 4096 by decide +kernel])
      | authn h hn => exact .inr (by simp only [resolve, hx _ (List.mem_singleton_self _), Res.ok_bind, Option.getD, parseUsize_decimal h hn])
      | election => exact .inr rfl
      | @vote id text p =>
        exact .inr (by simp only [resolve, hx id (List.mem_cons_self ..), hx text (List.mem_cons_of_mem _ (List.mem_singleton_self _)), Res.ok_bind])
      | @votingEnd id p =>
        cases sk with
        | none => exact .inl ⟨id, p, rfl, rfl⟩
        | some sk => exact .inr (by simp only [resolve, needKey, Res.mapErr, hx _ (List.mem_singleton_self _), Res.ok_bind])
    simp only [Res.mapErr, Res.ok_bind]
    rcases hr with ⟨id, p, rfl, rfl⟩ | hr
    · cases hc
      rfl
    · rw [hr]
      simp only [Res.ok_bind, hs]

/-- **C108** Names of files to be posted mean what they would mean to a shell: whatever the name expands to, it is the content of that file that is posted; if it cannot be expanded, or
there is no such file, nothing is posted. -/
theorem C108_file_names (N : NodeEnv) (nodes : Str → Exonum.Schema) (R : Randomness) (W : World) (a : Arguments) (f : Str) (hsub : a.sub = some (.post f))
    (key : Option Str) (hk : Setting W (str "CRYPTOBALLOT_SECRET_KEY") a.secretKey key) :
    (∀ g content, W.expand f = some g → W.file g = some content →
      main N nodes R W a = (Res.mapErr .command (run N OMap.empty R key (.post content))).bind fun out => .ok ⟨out, none⟩) ∧
    ((∀ g content, W.expand f = some g → W.file g ≠ some content) → ∀ d, main N nodes R W a ≠ .ok d) := by
  unfold main run
  rw [setting_key hk, hsub]
  cases secretKey key with
  | err e => exact ⟨fun _ _ _ _ => rfl, fun _ _ h => by cases h⟩
  | panic p => exact ⟨fun _ _ _ _ => rfl, fun _ _ h => by cases h⟩
  | ok sk =>
    constructor
    · intro g content hg hf
      simp only [Res.mapErr, Res.ok_bind, resolve, expand, hg, hf]
      rfl
    · intro h d hd
      simp only [Res.mapErr, Res.ok_bind, resolve, expand] at hd
      cases hg : W.expand f with
      | none => rw [hg] at hd; cases hd
      | some g =>
        rw [hg] at hd
        cases hf : W.file g with
        | none => simp only [Res.ok_bind, hf] at hd; cases hd
        | some content => exact h g content hg hf

/-- **C108** Identifiers in hexadecimal, and so all that the program prints and all elections' names, are never changed. -/
theorem C108_identifiers_as_typed (W : World) (hW : ExpandsLikeAShell W) (text : Str) (b : Bytes) (h : HexOf text b) : Plain text ∧ W.expand text = some text := by
  have hp : ∀ c ∈ text, c ≠ 0x24 ∧ c ≠ 0x7e := by
    have hd : ∀ {c : UInt8} {n : Nat}, HexDigitOf c n → c ≠ 0x24 ∧ c ≠ 0x7e := by
      intro c n h
      obtain ⟨hn, h⟩ := h
      constructor <;> (rintro rfl; revert h; revert n; unfold str; decide +kernel)
    induction h with
    | nil => simp
    | cons h1 h2 _ ih =>
      intro c hc
      rcases List.mem_cons.1 hc with rfl | hc
      · exact hd h1
      rcases List.mem_cons.1 hc with rfl | hc
      · exact hd h2
      exact ih c hc
  have hpl : Plain text := ⟨fun h => (hp _ h).1 rfl, fun h => (hp _ (List.mem_of_mem_head? h)).2 rfl⟩
  exact ⟨hpl, hW text hpl⟩

/-- **C108** What is given on the command line counts: with a node and a key given there, no variable of the environment has any effect. -/
theorem C108_command_line_wins (N : NodeEnv) (nodes : Str → Exonum.Schema) (R : Randomness) (W : World) (vars : Str → Option Str) (a : Arguments) (uri key : Str)
    (hu : a.uri = some uri) (hk : a.secretKey = some key) : main N nodes R { W with envVar := vars } a = main N nodes R W a := by
  have hr : ∀ sk sub, resolve { W with envVar := vars } sk sub = resolve W sk sub := by
    intro sk sub
    cases sub <;> rfl
  unfold main keyArgument nodeUri
  simp only [hu, hk, hr]
  rfl

/-- **C108** No trustee or authenticator is shown whose secret was not saved: if such a run succeeds, the file that was asked for holds the secret; a trustee's secret is
that of the public key shown. -/
theorem C108_secret_saved (N : NodeEnv) (nodes : Str → Exonum.Schema) (R : Randomness) (W : World) (a : Arguments) (d : Done) (h : main N nodes R W a = .ok d) :
    (∀ f, a.sub = some (.trusteeGenerate f) → ∃ l secret text sk, W.expand f = some l ∧ W.writable l = true ∧ filesAfter W d l = some secret ∧ KeyText secret sk ∧ d.out.printed = [text] ∧
      readTrustee text = .ok ⟨N.edPublic sk, 1, 0, 0⟩) ∧
    (∀ f ks, a.sub = some (.authnGenerate f ks) → ∃ l content, W.expand f = some l ∧ W.writable l = true ∧ filesAfter W d l = some content) := by
  unfold main at h
  obtain ⟨sk, -, h⟩ := Res.bind_eq_ok.1 h
  have hsave : ∀ {l : Str} {out : Output} {d : Done}, save W (some l) out = .ok d → W.writable l = true ∧ d = ⟨out, some l⟩ := by
    intro l out d h
    unfold save at h
    simp only at h
    split at h
    · cases h; exact ⟨by assumption, rfl⟩
    · cases h
  have hexp : ∀ {f l : Str}, expand W f = .ok l → W.expand f = some l := by
    intro f l h
    unfold expand at h
    split at h
    · cases h; assumption
    · cases h
  constructor
  · intro f hf
    rw [hf] at h
    simp only at h
    obtain ⟨⟨c, loc⟩, hc, h⟩ := Res.bind_eq_ok.1 h
    obtain ⟨l, hl, hc⟩ := Res.bind_eq_ok.1 hc
    cases hc
    obtain ⟨out, ho, h⟩ := Res.bind_eq_ok.1 h
    obtain ⟨hw, rfl⟩ := hsave h
    obtain ⟨o, file, text, ho', hfile, hp, -, hkt, hrt⟩ := C80_generated_trustee N (nodes (nodeUri W a)) R
    have heq : out = o := by
      have h1 : trusteeGenerate N R.secret = .ok out := Res.mapErr_eq_ok.1 ho
      have h2 : trusteeGenerate N R.secret = .ok o := ho'
      rw [h1] at h2
      cases h2
      rfl
    subst heq
    exact ⟨l, file, text, R.secret, hexp hl, hw, by simp only [filesAfter, if_true, hfile], hkt, hp, hrt⟩
  · intro f ks hf
    rw [hf] at h
    simp only at h
    obtain ⟨⟨c, loc⟩, hc, h⟩ := Res.bind_eq_ok.1 h
    obtain ⟨l, hl, hc⟩ := Res.bind_eq_ok.1 hc
    split at hc
    · cases hc
      obtain ⟨out, ho, h⟩ := Res.bind_eq_ok.1 h
      obtain ⟨hw, rfl⟩ := hsave h
      obtain ⟨au, -, hau⟩ := Res.bind_eq_ok.1 (Res.mapErr_eq_ok.1 ho)
      cases hau
      exact ⟨l, [], hexp hl, hw, by simp only [filesAfter, if_true]⟩
    · cases hc

/-- **C108** No other command, and no run that writes a secret, changes any other file. -/
theorem C108_other_files (N : NodeEnv) (nodes : Str → Exonum.Schema) (R : Randomness) (W : World) (a : Arguments) (d : Done) (h : main N nodes R W a = .ok d) (f : Str)
    (hf : filesAfter W d f ≠ W.file f) : ∃ g, W.expand g = some f ∧ (a.sub = some (.trusteeGenerate g) ∨ ∃ ks, a.sub = some (.authnGenerate g ks)) := by
  have hloc : d.location = some f := by
    by_contra hne
    exact hf (if_neg hne)
  unfold main at h
  obtain ⟨sk, -, h⟩ := Res.bind_eq_ok.1 h
  cases hsub : a.sub with
  | none =>
    rw [hsub] at h
    cases h
    cases hloc
  | some sub =>
    rw [hsub] at h
    obtain ⟨⟨c, loc⟩, hc, h⟩ := Res.bind_eq_ok.1 h
    obtain ⟨out, -, h⟩ := Res.bind_eq_ok.1 h
    have hl : loc = some f := by
      unfold save at h
      split at h
      · cases h; cases hloc
      · rename_i l hl
        split at h
        · cases h
          exact hl.trans hloc
        · cases h
    subst hl
    have hexp : ∀ {f l : Str}, expand W f = .ok l → W.expand f = some l := by
      intro f l h
      unfold expand at h
      split at h
      · cases h; assumption
      · cases h
    cases sub with
    | trusteeGenerate g =>
      obtain ⟨l, hl, hc⟩ := Res.bind_eq_ok.1 hc
      cases hc
      exact ⟨g, hexp hl, .inl rfl⟩
    | authnGenerate g ks =>
      obtain ⟨l, hl, hc⟩ := Res.bind_eq_ok.1 hc
      split at hc
      · cases hc
        exact ⟨g, hexp hl, .inr ⟨ks, rfl⟩⟩
      · cases hc
    | post g =>
      obtain ⟨l, hl, hc⟩ := Res.bind_eq_ok.1 hc
      split at hc <;> cases hc
    | e2e id fl => obtain ⟨l, hl, hc⟩ := Res.bind_eq_ok.1 hc; cases hc
    | voteGenerate id t p => obtain ⟨l, hl, hc⟩ := Res.bind_eq_ok.1 hc; obtain ⟨l, hl, hc⟩ := Res.bind_eq_ok.1 hc; cases hc
    | votingEndGenerate id p => obtain ⟨l, hl, hc⟩ := Res.bind_eq_ok.1 hc; obtain ⟨l, hl, hc⟩ := Res.bind_eq_ok.1 hc; cases hc
    | keygen => cases hc
    | sign => cases hc
    | get => cases hc
    | tally => cases hc
    | electionGenerate => cases hc

/-! ## A computer for the samples -/

/-- a home directory, no variables, one file with a key in it, everything else can be written -/
def toyWorld : World where
  envVar _ := none
  file f := if f = str "secret.key" then some (hexEncode (Toy.key 3).val) else none
  writable _ := true
  expand text := if text = [0x7e] then some (str "/home/ada") else some text

theorem toyWorld_shell : ExpandsLikeAShell toyWorld := by
  intro text h
  refine if_neg ?_
  rintro rfl
  exact h.2 rfl

example : ∃ (W : World) (sub : Subcommand) (c : Command) (l : Option Str), ExpandsLikeAShell W ∧ (∀ t ∈ textsOf sub, Plain t) ∧ Asked W.file sub c l ∧ l = some (str "trustee.key") ∧
    (∀ l', l = some l' → W.writable l' = true) ∧ ∃ d, main Toy.node (fun _ => OMap.empty) (toyR 7) W { sub := some sub } = .ok d ∧ filesAfter W d (str "trustee.key") ≠ none := by
  have hp : ∀ t ∈ textsOf (.trusteeGenerate (str "trustee.key")), Plain t := by
    intro t ht
    cases List.mem_singleton.1 ht
    exact ⟨by decide, by decide⟩
  refine ⟨toyWorld, .trusteeGenerate (str "trustee.key"), _, _, toyWorld_shell, hp, .trustee, rfl, fun _ _ => rfl, ?_⟩
  have hm := C108_as_typed_partial Toy.node (fun _ => OMap.empty) (toyR 7) toyWorld toyWorld_shell { sub := some (.trusteeGenerate (str "trustee.key")) } _ rfl hp _ _ .trustee
    (fun _ _ => rfl) none none (.unset rfl) (.unset rfl)
  obtain ⟨o, file, text, ho, hfile, -⟩ := C80_generated_trustee Toy.node (OMap.empty) (toyR 7)
  rw [ho] at hm
  exact ⟨_, hm, by simp only [filesAfter, if_true, hfile]; exact Option.some_ne_none _⟩

example : Plain (hexEncode Toy.eid.toArray) := (C108_identifiers_as_typed toyWorld toyWorld_shell _ _ ((hexDecode_iff _ _).1 (hexDecode_hexEncode _))).1

example : Asked toyWorld.file (.authnGenerate (str "authn.key") (some (str "2048"))) (.authnGenerate 2048) (some (str "authn.key")) :=
  .authn (show Decimal (str "2048") (Json.ofDigits (str "2048")) from Json.decimal_of (by decide) (by decide) (by decide)) (by decide)

example : ∃ a : Arguments, a.sub = some (.post (str "secret.key")) ∧ Setting toyWorld (str "CRYPTOBALLOT_SECRET_KEY") a.secretKey none ∧ toyWorld.expand (str "secret.key") = some (str "secret.key") ∧
    ∃ content, toyWorld.file (str "secret.key") = some content := ⟨{ sub := some (.post (str "secret.key")) }, rfl, .unset rfl, rfl, _, rfl⟩

/-! ## What is false -/

/-- **C108 is false of the code** (secrets): a secret that is in the named file already is not kept, `trustee generate` writes over it without a word. -/
theorem C108_secrets_kept_false :
    ¬ ∀ (N : NodeEnv) (nodes : Str → Exonum.Schema) (R : Randomness) (W : World) (a : Arguments) (d : Done) (f : Str) (text : Bytes) (sk : SecretKey), ExpandsLikeAShell W →
      W.file f = some text → KeyText text sk → main N nodes R W a = .ok d → ∃ text', filesAfter W d f = some text' ∧ KeyText text' sk := by
  intro h
  obtain ⟨text', h1, h2⟩ := h Toy.node (fun _ => OMap.empty) (toyR 7) toyWorld { sub := some (.trusteeGenerate (str "secret.key")) } _ (str "secret.key") _ (Toy.key 3) toyWorld_shell rfl
    (keyText_hex _) rfl
  have h3 : some text' = some (hexEncode (Toy.key 7).val) := h1.symm
  cases h3
  have h4 := (hexDecode_iff _ _).2 h2
  rw [hexDecode_hexEncode] at h4
  revert h4
  decide

theorem toy_key_answered : ∃ k, lookup Json.before ⟨Toy.eid.electionId, .encryptionKey, zero16⟩ = some (.encryptionKey k) ∧ k.tx.election = ⟨Toy.eid.electionId, .election, zero16⟩ := by
  have hc : (match Exonum.getTransaction Json.before ⟨Toy.eid.electionId, .encryptionKey, zero16⟩ with
    | some (.encryptionKey k) => decide (k.tx.election = ⟨Toy.eid.electionId, .election, zero16⟩)
    | _ => false) = true := by decide +kernel
  split at hc
  · rename_i k hk
    refine ⟨k, ?_, of_decide_eq_true hc⟩
    obtain ⟨e, he, hd⟩ := Exonum.getTransaction_eq_some.1 hk
    have hg : Api.getTx Json.before (⟨Toy.eid.electionId, .encryptionKey, zero16⟩ : Identifier).toString = .ok (.encryptionKey k) := by
      unfold Api.getTx
      rw [he]
      show Res.mapErr _ (SignedTx.fromBytes e.data) = _
      rw [hd]
      rfl
    unfold lookup
    rw [Json.C74_rest_lookup_is_faithful _ _ _ hg (by intro p hp; cases hp)]
    rfl
  · cases hc

/-- **C108 is false of the code** (votes): a vote is expanded like a file name, so two voters who type different votes may cast the same one.  Here one types `~` and the vote that is
encrypted is the name of their home directory. -/
theorem C108_votes_as_typed_false :
    ¬ ∀ (N : NodeEnv) (nodes : Str → Exonum.Schema) (R : Randomness) (W : World) (id text text' : Str) (d : Done),
      (∀ k m m' r, N.encrypt k m r = N.encrypt k m' r → m = m') → ExpandsLikeAShell W →
      main N nodes R W { sub := some (.voteGenerate id text false) } = .ok d → main N nodes R W { sub := some (.voteGenerate id text' false) } = .ok d →
      text = text' := by
  intro h
  obtain ⟨k, hk, hown⟩ := toy_key_answered
  have hn : Names (hexEncode Toy.eid.electionId.val) Toy.eid.electionId :=
    ⟨_, (hexDecode_iff _ _).1 (hexDecode_hexEncode _), by decide +kernel⟩
  obtain ⟨s, hs, -⟩ := Client.C63_vote_generate_partial Toy.node (fun sk msg => by simp [Toy.node, Toy.env]) (toyR 7).secret (toyR 7).rng (lookup Json.before)
    (hexEncode Toy.eid.electionId.val) (str "/home/ada") Toy.eid.electionId hn k hk hown
  have hid : toyWorld.expand (hexEncode Toy.eid.electionId.val) = some (hexEncode Toy.eid.electionId.val) := by rfl
  have hm : ∀ text, toyWorld.expand text = some (str "/home/ada") →
      main Toy.node (fun _ => Json.before) (toyR 7) toyWorld { sub := some (.voteGenerate (hexEncode Toy.eid.electionId.val) text false) } = .ok ⟨emit false (.vote s), none⟩ := by
    intro text ht
    have hr : resolve toyWorld none (.voteGenerate (hexEncode Toy.eid.electionId.val) text false) = .ok (.voteGenerate (hexEncode Toy.eid.electionId.val) (str "/home/ada") false, none) := by
      simp only [resolve, expand, hid, ht, Res.ok_bind]
    show (resolve toyWorld none (.voteGenerate (hexEncode Toy.eid.electionId.val) text false)).bind _ = _
    rw [hr]
    simp only [Res.ok_bind, command, Option.getD_none, hs, unwrap, Res.mapErr, save]
  have := h Toy.node _ (toyR 7) toyWorld _ [0x7e] (str "/home/ada") _ (by intro k m m' r h; cases h; rfl) toyWorld_shell (hm _ rfl) (hm _ rfl)
  exact absurd this (by decide)

end Cli
end CB
