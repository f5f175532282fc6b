import Verif.Spec.Blocks
import Verif.Lemmas.NetEmit
import Verif.Props.ServerDec
/-!
# The blockchain refines the network
-/

namespace CB
open Spec Server

/-! ## What nodes generate depends on lookups only -/

namespace Server

theorem getAll_congr {T : Type} {S S' : Store} (h : Lawful S) (h' : Lawful S') (hg : ∀ id, S.getTransaction id = S'.getTransaction id) (el : Identifier) (ty : TxType)
    (into : SignedTx → VRes (Signed T)) : getAll S el ty into = getAll S' el ty into := by
  unfold getAll
  rw [getMultiple_congr h h' (fun id _ => hg id)]

theorem generate_congr (N : NodeEnv) (rng : Rng) (sk : SecretKey) {S S' : Store} (h : Lawful S) (h' : Lawful S') (hg : ∀ id, S.getTransaction id = S'.getTransaction id)
    (t : SignedTx) : generateTransactions N rng sk S t = generateTransactions N rng sk S' t := by
  have hel : ∀ id, S.getElection id = S'.getElection id := fun id => by simp only [Store.getElection, hg]
  have hvote : ∀ id, S.getVote id = S'.getVote id := fun id => by simp only [Store.getVote, hg]
  have hmix : ∀ id, S.getMix id = S'.getMix id := fun id => by simp only [Store.getMix, hg]
  have hall : ∀ {T : Type} (el : Identifier) (ty : TxType) (into : SignedTx → VRes (Signed T)), getAll S el ty into = getAll S' el ty into :=
    fun el ty into => getAll_congr h h' hg el ty into
  have henc : ∀ el, encryptionKey S el = encryptionKey S' el := fun el => by simp only [encryptionKey, hg]
  have hitems : ∀ e c m, partialItems S e c m = partialItems S' e c m := fun e c m => by cases m <;> simp only [partialItems, hall]
  have hprod : ∀ e tr c m, producePartials N rng sk S e tr c m = producePartials N rng sk S' e tr c m := fun e tr c m => by simp only [producePartials, hall, hitems]
  have hup : ∀ p, upstreamCiphertexts S p = upstreamCiphertexts S' p := fun p => by simp only [upstreamCiphertexts, hvote, hmix]
  have hrange : ∀ (e : Identifier) (u : BArr 16), S.range { e with txType := .partialDecryption, uniqueInfo := withLast u 0 }
      { e with txType := .partialDecryption, uniqueInfo := withLast u 255 } = S'.range { e with txType := .partialDecryption, uniqueInfo := withLast u 0 }
      { e with txType := .partialDecryption, uniqueInfo := withLast u 255 } := fun e u =>
    (Exonum.sameStore_of_get h h' hg).2 _ _ (((between_last (e := e) (u := u) (ty := .partialDecryption)
      (id := { e with txType := .partialDecryption, uniqueInfo := withLast u 255 })).2
        ⟨rfl, rfl, List.take_left' (by have := u.property; simp; omega)⟩).1)
  cases t <;> simp only [generateTransactions, processElection, processKeygenCommitment, processKeygenShare, processKeygenPublicKey, processVotingEnd, processMix,
    processPartialDecryption, hel, hall, henc, hprod, hup, hrange]

end Server

/-! ## The accepted transactions -/

namespace Exonum

/-- the transactions that get stored when these envelopes are delivered, in order -/
def accepted (E : Env) : Schema → List Envelope → List SignedTx
  | _, [] => []
  | s, x :: xs => (match verifyAndStore E s x with | .ok _ => x.decoded.toList | _ => []) ++ accepted E (deliver E s x) xs

theorem accepted_append (E : Env) (s : Schema) (l l' : List Envelope) : accepted E s (l ++ l') = accepted E s l ++ accepted E (deliverAll E s l) l' := by
  induction l generalizing s with
  | nil => rfl
  | cons x xs ih =>
    have h1 := fun s l => accepted.eq_2 E s x l
    rw [List.cons_append, h1, h1, ih, List.append_assoc]
    rfl

theorem mem_accepted {E : Env} {s : Schema} {l : List Envelope} {t : SignedTx} (h : t ∈ accepted E s l) : ∃ x ∈ l, x.decoded = some t := by
  induction l generalizing s with
  | nil => cases h
  | cons x xs ih =>
    unfold accepted at h
    rcases List.mem_append.1 h with h | h
    · split at h
      · exact ⟨x, by simp, by simpa using h⟩
      · cases h
    · obtain ⟨y, hy, hd⟩ := ih h
      exact ⟨y, by simp [hy], hd⟩

/-- one more envelope: either nothing changes, or its transaction is fresh and valid and gets stored -/
theorem accepted_snoc (E : Env) (l : List Envelope) (x : Envelope) :
    (accepted E OMap.empty (l ++ [x]) = accepted E OMap.empty l ∧ deliverAll E OMap.empty (l ++ [x]) = deliverAll E OMap.empty l ∧
      ¬ ∃ t, x.decoded = some t ∧ (deliverAll E OMap.empty l).get x.id = none ∧ t.validate E (toStore (deliverAll E OMap.empty l)) = .ok ()) ∨
    ∃ t, x.decoded = some t ∧ (deliverAll E OMap.empty l).get x.id = none ∧ t.validate E (toStore (deliverAll E OMap.empty l)) = .ok () ∧
      accepted E OMap.empty (l ++ [x]) = accepted E OMap.empty l ++ [t] ∧ deliverAll E OMap.empty (l ++ [x]) = (deliverAll E OMap.empty l).insert x.id x := by
  rw [accepted_append, deliverAll_snoc]
  unfold accepted accepted deliver
  cases h : verifyAndStore E (deliverAll E OMap.empty l) x with
  | ok s' =>
    obtain ⟨h1, t, h2, h3, rfl⟩ := verifyAndStore_ok.1 h
    have hd := decoded_eq_some.2 h2
    exact .inr ⟨t, hd, h1, h3, by simp [hd], rfl⟩
  | err e =>
    refine .inl ⟨by simp, rfl, ?_⟩
    rintro ⟨t, h1, h2, h3⟩
    rw [verifyAndStore_ok.2 ⟨h2, t, decoded_eq_some.1 h1, h3, rfl⟩] at h
    cases h
  | panic e =>
    refine .inl ⟨by simp, rfl, ?_⟩
    rintro ⟨t, h1, h2, h3⟩
    rw [verifyAndStore_ok.2 ⟨h2, t, decoded_eq_some.1 h1, h3, rfl⟩] at h
    cases h

/-- lookups on the blockchain are lookups among the accepted transactions -/
theorem accepted_spec (E : Env) (l : List Envelope) (hl : ∀ x ∈ l, Labelled x) :
    Network.Sound E (accepted E OMap.empty l) ∧ (∀ id, getTransaction (deliverAll E OMap.empty l) id = (MemStore.ofList (accepted E OMap.empty l)).getTransaction id) := by
  induction l using List.reverseRecOn with
  | nil => exact ⟨.nil, fun _ => rfl⟩
  | append_singleton l x ih =>
    obtain ⟨hs, hg⟩ := ih fun y hy => hl y (by simp [hy])
    have hw : WF (deliverAll E OMap.empty l) := wf_deliverAll fun y hy => hl y (by simp [hy])
    rcases accepted_snoc E l x with ⟨h1, h2, -⟩ | ⟨t, hd, hn, hv, h1, h2⟩
    · rw [h1, h2]; exact ⟨hs, hg⟩
    · have hid : x.id = t.id.toString := hl x (by simp) t (decoded_eq_some.1 hd)
      have hv' : t.validate E (MemStore.ofList (accepted E OMap.empty l)).toStore = .ok () := by
        rw [← C34_elections_isolated E _ _ (lawful hw) hs.whole.lawful t fun _ _ id _ => hg id]
        exact hv
      have hf : (MemStore.ofList (accepted E OMap.empty l)).getTransaction t.id = none := by
        rw [← hg]; unfold getTransaction; rw [← hid, hn]
      rw [h1, h2]
      refine ⟨hs.append hf hv', fun id => ?_⟩
      rw [Network.ofList_append, MemStore.get_set]
      unfold getTransaction
      rw [OMap.get_insert, hid]
      simp only [Identifier.toString_inj]
      by_cases hi : id = t.id
      · rw [if_pos hi, if_pos hi]; exact hd
      · rw [if_neg hi, if_neg hi]; exact hg id

/-- each accepted transaction came in some block -/
theorem accepted_in_block {E : Env} {s : Schema} {bs : List (List Envelope)} {m : Nat} {t : SignedTx} (h : (accepted E s bs.flatten)[m]? = some t) :
    ∃ k x, x ∈ bs.getD k [] ∧ x.decoded = some t ∧ m < (accepted E s (bs.take (k + 1)).flatten).length := by
  induction bs generalizing s m with
  | nil => simp [accepted] at h
  | cons b bs ih =>
    rw [List.flatten_cons, accepted_append] at h
    by_cases hm : m < (accepted E s b).length
    · rw [List.getElem?_append_left hm] at h
      obtain ⟨x, hx, hd⟩ := mem_accepted (List.mem_of_getElem? h)
      exact ⟨0, x, by simpa using hx, hd, by simpa using hm⟩
    · rw [List.getElem?_append_right (by omega)] at h
      obtain ⟨k, x, hx, hd, hlt⟩ := ih h
      refine ⟨k + 1, x, by simpa using hx, hd, ?_⟩
      rw [List.take_succ_cons, List.flatten_cons, accepted_append, List.length_append]
      omega

end Exonum

/-! ## Simulation -/

namespace Server.Chain

variable {N : NodeEnv} {P : Event → Prop}

theorem run_snoc (N : NodeEnv) (evs : List BlockEvent) (ev : BlockEvent) : run N (evs ++ [ev]) = step N (run N evs) ev := by simp [run]

/-- the network can go from one state to another with permitted events -/
def Reach (N : NodeEnv) (P : Event → Prop) (n n' : Network) : Prop := ∃ evs : List Event, (∀ ev ∈ evs, P ev) ∧ n' = evs.foldl (Network.step N) n

theorem Reach.refl (n : Network) : Reach N P n n := ⟨[], by simp, rfl⟩

theorem Reach.trans {n n' n'' : Network} (h : Reach N P n n') (h' : Reach N P n' n'') : Reach N P n n'' := by
  obtain ⟨l, hl, rfl⟩ := h
  obtain ⟨l', hl', rfl⟩ := h'
  refine ⟨l ++ l', fun ev hev => ?_, by rw [List.foldl_append]⟩
  rcases List.mem_append.1 hev with h | h
  · exact hl ev h
  · exact hl' ev h

theorem Reach.one {n : Network} {ev : Event} (h : P ev) : Reach N P n (Network.step N n ev) := ⟨[ev], by simpa using h, rfl⟩

theorem perm_eraseIdx_filterMap {α β : Type} (f : α → Option β) {l : List α} {i : Nat} {x : α} (h : l[i]? = some x) :
    (l.filterMap f).Perm ((f x).toList ++ (l.eraseIdx i).filterMap f) := by
  obtain ⟨hi, rfl⟩ := List.getElem?_eq_some_iff.1 h
  have hp : l.Perm (l[i] :: l.eraseIdx i) := (List.getElem_cons_eraseIdx_perm hi).symm
  refine (hp.filterMap f).trans ?_
  rw [List.filterMap_cons]
  cases f l[i] <;> simp

/-- delivering one envelope -/
theorem deliver_sim (hP : ∀ i, P (.deliver i)) {n : Network} {L pool rest : List Exonum.Envelope} (hL : ∀ x ∈ L ++ pool, Labelled x)
    (hn : n.ledger = Exonum.accepted N.toEnv OMap.empty L) (hp : n.pending.Perm ((pool ++ rest).filterMap Exonum.Envelope.decoded)) {i : Nat} {x : Exonum.Envelope}
    (hx : pool[i]? = some x) :
    ∃ n', Reach N P n n' ∧ n'.ledger = Exonum.accepted N.toEnv OMap.empty (L ++ [x]) ∧
      n'.pending.Perm ((pool.eraseIdx i ++ rest).filterMap Exonum.Envelope.decoded) ∧ n'.reacted = n.reacted := by
  have hi : i < pool.length := (List.getElem?_eq_some_iff.1 hx).1
  have hperm := perm_eraseIdx_filterMap Exonum.Envelope.decoded (l := pool ++ rest) (i := i) (x := x) (by rw [List.getElem?_append_left hi, hx])
  rw [List.eraseIdx_append_of_lt_length hi] at hperm
  have hspec := Exonum.accepted_spec N.toEnv L fun y hy => hL y (by simp [hy])
  cases hd : x.decoded with
  | none =>
    rw [hd] at hperm
    refine ⟨n, .refl n, ?_, hp.trans hperm, rfl⟩
    rcases Exonum.accepted_snoc N.toEnv L x with ⟨h1, -⟩ | ⟨t, ht, -⟩
    · rw [h1, hn]
    · rw [hd] at ht; cases ht
  | some t =>
    rw [hd] at hperm
    have hmem : t ∈ n.pending := (hp.trans hperm).mem_iff.2 (by simp)
    obtain ⟨j, hj⟩ := List.getElem?_of_mem hmem
    have hlab : x.id = t.id.toString := hL x (by simp [List.mem_of_getElem? hx]) t (Exonum.decoded_eq_some.1 hd)
    have hpe : (n.pending.eraseIdx j).Perm ((pool.eraseIdx i ++ rest).filterMap Exonum.Envelope.decoded) := by
      obtain ⟨hj', rfl⟩ := List.getElem?_eq_some_iff.1 hj
      have h1 : (n.pending[j] :: n.pending.eraseIdx j).Perm (n.pending[j] :: (pool.eraseIdx i ++ rest).filterMap Exonum.Envelope.decoded) :=
        (List.getElem_cons_eraseIdx_perm hj').trans (hp.trans hperm)
      exact h1.cons_inv
    have hcond : ((n.store.getTransaction t.id).isNone ∧ t.validate N.toEnv n.store.toStore = .ok ()) ↔
        ∃ t', x.decoded = some t' ∧ (Exonum.deliverAll N.toEnv OMap.empty L).get x.id = none ∧
          t'.validate N.toEnv (Exonum.toStore (Exonum.deliverAll N.toEnv OMap.empty L)) = .ok () := by
      have hw : Exonum.WF (Exonum.deliverAll N.toEnv OMap.empty L) := Exonum.wf_deliverAll fun y hy => hL y (by simp [hy])
      have hval : t.validate N.toEnv (Exonum.toStore (Exonum.deliverAll N.toEnv OMap.empty L)) = t.validate N.toEnv n.store.toStore := by
        unfold Network.store
        rw [hn]
        exact C34_elections_isolated _ _ _ (Exonum.lawful hw) hspec.1.whole.lawful t fun _ _ id _ => hspec.2 id
      have hnone : (n.store.getTransaction t.id).isNone ↔ (Exonum.deliverAll N.toEnv OMap.empty L).get x.id = none := by
        unfold Network.store
        rw [hn, ← hspec.2, hlab]
        unfold Exonum.getTransaction
        cases hc : (Exonum.deliverAll N.toEnv OMap.empty L).get t.id.toString with
        | none => simp
        | some y =>
          obtain ⟨u, hu, -⟩ := hw _ _ hc
          simp [Exonum.decoded_eq_some.2 hu]
      rw [hnone, ← hval]
      simp [hd]
    refine ⟨Network.step N n (.deliver j), .one (hP j), ?_, ?_, ?_⟩
    · simp only [Network.step, hj]
      rcases Exonum.accepted_snoc N.toEnv L x with ⟨h1, -, h2⟩ | ⟨t', ht', hn', hv', h1, -⟩
      · rw [if_neg (fun h => h2 (hcond.1 h)), h1, ← hn]
      · rw [if_pos (hcond.2 ⟨t', ht', hn', hv'⟩), h1, ← hn]
        rw [hd] at ht'
        cases ht'
        rfl
    · simp only [Network.step, hj]
      split <;> exact hpe
    · simp only [Network.step, hj]
      split <;> rfl

theorem pick_perm {α : Type} (pool : List α) (is : List Nat) : ((pick pool is).1 ++ (pick pool is).2).Perm pool := by
  induction is generalizing pool with
  | nil => exact List.Perm.refl _
  | cons i is ih =>
    unfold pick
    split
    · rename_i x hx
      obtain ⟨hi, rfl⟩ := List.getElem?_eq_some_iff.1 hx
      exact ((ih _).cons _).trans (List.getElem_cons_eraseIdx_perm hi)
    · exact ih pool

/-- committing a block -/
theorem pick_sim (hP : ∀ i, P (.deliver i)) {n : Network} {L pool rest : List Exonum.Envelope} (hL : ∀ x ∈ L ++ pool, Labelled x)
    (hn : n.ledger = Exonum.accepted N.toEnv OMap.empty L) (hp : n.pending.Perm ((pool ++ rest).filterMap Exonum.Envelope.decoded)) (is : List Nat) :
    ∃ n', Reach N P n n' ∧ n'.ledger = Exonum.accepted N.toEnv OMap.empty (L ++ (pick pool is).1) ∧
      n'.pending.Perm (((pick pool is).2 ++ rest).filterMap Exonum.Envelope.decoded) ∧ n'.reacted = n.reacted := by
  induction is generalizing n L pool with
  | nil => exact ⟨n, .refl n, by simpa [pick] using hn, hp, rfl⟩
  | cons i is ih =>
    unfold pick
    split
    · rename_i x hx
      obtain ⟨n1, hr, h1, h2, h3⟩ := deliver_sim hP hL hn hp hx
      obtain ⟨n2, hr', h1', h2', h3'⟩ := ih (L := L ++ [x]) (pool := pool.eraseIdx i) (by
        intro y hy
        simp only [List.mem_append, List.mem_singleton] at hy
        rcases hy with (hy | rfl) | hy
        · exact hL y (by simp [hy])
        · exact hL _ (by simp [List.mem_of_getElem? hx])
        · exact hL y (by simp [List.mem_of_mem_eraseIdx hy])) h1 h2
      refine ⟨n2, hr.trans hr', ?_, h2', h3'.trans h3⟩
      rw [h1', List.append_assoc]
      rfl
    · exact ih hL hn hp

/-- one turn of the loop in `after_commit` -/
theorem react_sim {n : Network} {L : List Exonum.Envelope} (hL : ∀ x ∈ L, Labelled x) (hn : Exonum.accepted N.toEnv OMap.empty L <+: n.ledger)
    {k : SecretKey} {rng : Rng} (hP : ∀ m v, P (.react k rng m v)) {x : Exonum.Envelope}
    (hrust : ∀ t : SignedTx, Identifier.fromStr x.id = .ok t.id → InStore (Exonum.toStore (Exonum.deliverAll N.toEnv OMap.empty L)) t →
      ∀ l, generateTransactions N rng k (Exonum.toStore (Exonum.deliverAll N.toEnv OMap.empty L)) t = .ok l → ∀ d ∈ l, RustData d)
    {out : List Exonum.Envelope} (hr : react N rng k (Exonum.deliverAll N.toEnv OMap.empty L) x = .ok out) :
    ∃ n', Reach N P n n' ∧ n'.ledger = n.ledger ∧ n'.pending = n.pending ++ out.filterMap Exonum.Envelope.decoded ∧ (∀ r ∈ n.reacted, r ∈ n'.reacted) ∧
      (∀ y ∈ out, Labelled y) ∧
      ∀ m t, (Exonum.accepted N.toEnv OMap.empty L)[m]? = some t → Identifier.fromStr x.id = .ok t.id → (k, m) ∈ n'.reacted := by
  obtain ⟨hs, hg⟩ := Exonum.accepted_spec N.toEnv L hL
  have hw : Exonum.WF (Exonum.deliverAll N.toEnv OMap.empty L) := Exonum.wf_deliverAll hL
  have hnone : out = [] → (∀ id t, Identifier.fromStr x.id = .ok id → Exonum.getTransaction (Exonum.deliverAll N.toEnv OMap.empty L) id ≠ some t) →
      ∃ n', Reach N P n n' ∧ n'.ledger = n.ledger ∧ n'.pending = n.pending ++ out.filterMap Exonum.Envelope.decoded ∧ (∀ r ∈ n.reacted, r ∈ n'.reacted) ∧
      (∀ y ∈ out, Labelled y) ∧
      ∀ m t, (Exonum.accepted N.toEnv OMap.empty L)[m]? = some t → Identifier.fromStr x.id = .ok t.id → (k, m) ∈ n'.reacted := by
    rintro rfl h
    refine ⟨n, .refl n, rfl, by simp, fun r h => h, by simp, fun m t hm hf => ?_⟩
    refine absurd ?_ (h t.id t hf)
    rw [hg]
    exact (Network.stored_iff_mem hs.nodup t).2 (List.mem_of_getElem? hm)
  unfold react at hr
  split at hr
  · rename_i id hid
    split at hr
    · rename_i t ht
      have ht' := ht
      rw [hg] at ht'
      obtain ⟨hmem, rfl⟩ := (Network.get_some hs.nodup).1 ht'
      obtain ⟨m, hm⟩ := List.getElem?_of_mem hmem
      have htake : n.ledger.take (Exonum.accepted N.toEnv OMap.empty L).length = Exonum.accepted N.toEnv OMap.empty L := (List.prefix_iff_eq_take.1 hn).symm
      have hgen := generate_congr N rng k (Exonum.lawful hw) hs.whole.lawful hg t
      split at hr
      · rename_i l hl
        cases hr
        have hstep : Network.step N n (.react k rng m (Exonum.accepted N.toEnv OMap.empty L).length) =
            { n with pending := n.pending ++ l.filter fun d => ((MemStore.ofList (Exonum.accepted N.toEnv OMap.empty L)).getTransaction d.id).isNone,
                     reacted := (k, m) :: n.reacted } := by
          simp only [Network.step, Network.storeAt, htake, hm]
          rw [← hgen, hl]
        have hrd : ∀ d ∈ l, RustData d ∧ forget d = d := by
          intro d hd
          have hk := (Setup.emitted (Exonum.lawful hw) (x := t) ht hl hd).2.2
          refine ⟨hrust t hid ht l hl d hd, ?_⟩
          cases d <;> first | rfl | (revert hk; cases t <;> simp [Setup.follows, kindOf])
        refine ⟨_, .one (hP m (Exonum.accepted N.toEnv OMap.empty L).length), ?_, ?_, ?_, ?_, ?_⟩
        · rw [hstep]
        · rw [hstep]
          rw [List.filterMap_map]
          have hfil : (l.filter fun d => ((MemStore.ofList (Exonum.accepted N.toEnv OMap.empty L)).getTransaction d.id).isNone) =
              l.filter fun d => (Exonum.getTransaction (Exonum.deliverAll N.toEnv OMap.empty L) d.id).isNone := by
            refine List.filter_congr fun d _ => ?_
            rw [hg]
          rw [hfil]
          symm
          have : ∀ d ∈ l.filter fun d => (Exonum.getTransaction (Exonum.deliverAll N.toEnv OMap.empty L) d.id).isNone,
              (Exonum.Envelope.decoded ∘ Exonum.Envelope.ofTx) d = some d := by
            intro d hd
            obtain ⟨h1, h2⟩ := hrd d (List.mem_filter.1 hd).1
            have := (Exonum.C37_envelope_roundtrip d h1).1
            rw [h2] at this
            exact Exonum.decoded_eq_some.2 this
          rw [List.filterMap_congr this, List.filterMap_some]
        · rw [hstep]
          exact fun r hr => List.mem_cons_of_mem _ hr
        · intro y hy
          obtain ⟨d, hd, rfl⟩ := List.mem_map.1 hy
          exact (Exonum.C37_envelope_roundtrip d (hrd d (List.mem_filter.1 hd).1).1).2.2.1
        · intro m' t' hm' hf
          rw [hid] at hf
          have heq : t.id = t'.id := by injection hf
          have h1 : ((Exonum.accepted N.toEnv OMap.empty L).map SignedTx.id)[m]? = some t.id := by rw [List.getElem?_map, hm]; rfl
          have h2 : ((Exonum.accepted N.toEnv OMap.empty L).map SignedTx.id)[m']? = some t'.id := by rw [List.getElem?_map, hm']; rfl
          have := (List.getElem?_inj (List.getElem?_eq_some_iff.1 h1).1 hs.nodup).1 (h1.trans (by rw [heq, h2]))
          subst this
          rw [hstep]
          exact List.mem_cons_self
      · cases hr
      · cases hr
    · rename_i hno
      cases hr
      refine hnone rfl fun id' t hid' => ?_
      rw [hid] at hid'
      cases hid'
      rw [hno]
      exact fun h => by cases h
  · rename_i hno
    cases hr
    exact hnone rfl fun id' t hid' => by rw [hno] at hid'; cases hid'
  · cases hr

/-- the whole loop -/
theorem process_sim {n : Network} {L : List Exonum.Envelope} (hL : ∀ x ∈ L, Labelled x) (hn : Exonum.accepted N.toEnv OMap.empty L <+: n.ledger)
    {k : SecretKey} {rng : Nat → Rng} (hP : ∀ i m v, P (.react k (rng i) m v)) {xs : List Exonum.Envelope} (hxs : ∀ x ∈ xs, Labelled x)
    (hrust : ∀ x ∈ xs, ∀ t : SignedTx, Identifier.fromStr x.id = .ok t.id → InStore (Exonum.toStore (Exonum.deliverAll N.toEnv OMap.empty L)) t →
      ∀ i l, generateTransactions N (rng i) k (Exonum.toStore (Exonum.deliverAll N.toEnv OMap.empty L)) t = .ok l → ∀ d ∈ l, RustData d) (i : Nat) :
    ∃ n', Reach N P n n' ∧ n'.ledger = n.ledger ∧
      n'.pending = n.pending ++ (processBlock N rng k (Exonum.deliverAll N.toEnv OMap.empty L) i xs).1.filterMap Exonum.Envelope.decoded ∧
      (∀ r ∈ n.reacted, r ∈ n'.reacted) ∧ (∀ y ∈ (processBlock N rng k (Exonum.deliverAll N.toEnv OMap.empty L) i xs).1, Labelled y) ∧
      ((processBlock N rng k (Exonum.deliverAll N.toEnv OMap.empty L) i xs).2 = true →
        ∀ x ∈ xs, ∀ t : SignedTx, x.id = t.id.toString → ∀ m, (Exonum.accepted N.toEnv OMap.empty L)[m]? = some t → (k, m) ∈ n'.reacted) := by
  induction xs generalizing n i with
  | nil => exact ⟨n, .refl n, rfl, by simp [processBlock], fun r h => h, by simp [processBlock], by simp⟩
  | cons x xs ih =>
    cases hr : react N (rng i) k (Exonum.deliverAll N.toEnv OMap.empty L) x with
    | ok out =>
      obtain ⟨n1, hr1, h1, h2, h3, h4, h5⟩ := react_sim hL hn (hP i) (fun t hf ht l hl => hrust x (by simp) t hf ht i l hl) hr
      obtain ⟨n2, hr2, g1, g2, g3, g4, g5⟩ := ih (n := n1) (by rw [h1]; exact hn) (fun y hy => hxs y (by simp [hy])) (fun y hy => hrust y (by simp [hy])) (i + 1)
      refine ⟨n2, hr1.trans hr2, g1.trans h1, ?_, fun r hr => g3 r (h3 r hr), ?_, ?_⟩
      · simp only [processBlock, hr]
        rw [g2, h2, List.filterMap_append, List.append_assoc]
      · simp only [processBlock, hr]
        intro y hy
        rcases List.mem_append.1 hy with hy | hy
        · exact h4 y hy
        · exact g4 y hy
      · simp only [processBlock, hr]
        intro hb y hy t ht m hm
        rcases List.mem_cons.1 hy with rfl | hy
        · refine g3 _ (h5 m t hm ?_)
          rw [ht]
          exact (C01_identifier_text_roundtrip t.id).1
        · exact g5 hb y hy t ht m hm
    | err e => cases e
    | panic p => exact ⟨n, .refl n, rfl, by simp [processBlock, hr], fun r h => h, by simp [processBlock, hr], by simp [processBlock, hr]⟩

/-- how states of the blockchain and states of the network correspond -/
structure Rel (N : NodeEnv) (c : Chain) (n : Network) : Prop where
  labelled : ∀ x ∈ c.blocks.flatten ++ (c.pool ++ c.lost), Labelled x
  ledger : n.ledger = Exonum.accepted N.toEnv OMap.empty c.blocks.flatten
  pending : n.pending.Perm ((c.pool ++ c.lost).filterMap Exonum.Envelope.decoded)
  height : ∀ k h, (k, h + 1) ∈ c.processed → h + 1 < c.blocks.length
  reacted : ∀ k h, (k, h + 1) ∈ c.processed → ∀ x ∈ c.blocks.getD h [], ∀ t : SignedTx, x.id = t.id.toString → ∀ m,
    (Exonum.accepted N.toEnv OMap.empty (c.blocks.take (h + 1)).flatten)[m]? = some t → (k, m) ∈ n.reacted

theorem mem_flatten_of_getD {α : Type} {bs : List (List α)} {h : Nat} {x : α} (hx : x ∈ bs.getD h []) : x ∈ bs.flatten := by
  rw [List.getD_eq_getElem?_getD] at hx
  cases hb : bs[h]? with
  | none => rw [hb] at hx; cases hx
  | some b => rw [hb] at hx; exact List.mem_flatten.2 ⟨b, List.mem_of_getElem? hb, hx⟩

theorem step_sim {c : Chain} {n : Network} (h : Rel N c n) (hP : ∀ i, P (.deliver i)) {ev : BlockEvent} (hev : OnBlocks P ev)
    (hrust : ∀ k rng j, ev = .afterCommit k rng (j + 1) → ∀ x ∈ c.blocks.getD j [], ∀ t : SignedTx, Identifier.fromStr x.id = .ok t.id →
      InStore (Exonum.toStore (c.schemaAt N.toEnv (j + 1))) t →
      ∀ i l, generateTransactions N (rng i) k (Exonum.toStore (c.schemaAt N.toEnv (j + 1))) t = .ok l → ∀ d ∈ l, RustData d) :
    ∃ n', Reach N P n n' ∧ Rel N (step N c ev) n' := by
  cases ev with
  | submit x =>
    obtain ⟨hlab, hsub⟩ := hev
    have hl : ∀ y ∈ c.blocks.flatten ++ (c.pool ++ [x] ++ c.lost), Labelled y := by
      intro y hy
      simp only [List.mem_append, List.mem_singleton] at hy
      rcases hy with hy | (hy | rfl) | hy
      · exact h.labelled y (by simp [hy])
      · exact h.labelled y (by simp [hy])
      · exact hlab
      · exact h.labelled y (by simp [hy])
    cases hd : x.decoded with
    | none =>
      refine ⟨n, .refl n, hl, h.ledger, ?_, h.height, h.reacted⟩
      refine h.pending.trans ?_
      simp [step, List.filterMap_append, hd]
    | some t =>
      refine ⟨Network.step N n (.submit t), .one (hsub t (Exonum.decoded_eq_some.1 hd)), hl, h.ledger, ?_, h.height, h.reacted⟩
      simp only [step, Network.step, List.filterMap_append, List.append_assoc, List.filterMap_cons, hd, List.filterMap_nil]
      have := h.pending
      rw [List.filterMap_append] at this
      refine (this.append_right [t]).trans ?_
      rw [List.append_assoc]
      exact List.Perm.append_left _ List.perm_append_comm
  | commit places =>
    obtain ⟨n', hr, h1, h2, h3⟩ := pick_sim hP (n := n) (L := c.blocks.flatten) (pool := c.pool) (rest := c.lost) (fun x hx => h.labelled x (by
      simp only [List.mem_append] at hx ⊢; rcases hx with hx | hx <;> simp [hx])) h.ledger h.pending places
    refine ⟨n', hr, ?_, ?_, h2, ?_, ?_⟩
    · intro y hy
      simp only [step, List.flatten_append, List.flatten_cons, List.flatten_nil, List.append_nil, List.mem_append] at hy
      have hpp : y ∈ (pick c.pool places).1 ∨ y ∈ (pick c.pool places).2 → y ∈ c.pool := fun h => (pick_perm c.pool places).mem_iff.1 (List.mem_append.2 h)
      rcases hy with (hy | hy) | hy | hy
      · exact h.labelled y (by simp only [List.mem_append]; exact .inl hy)
      · exact h.labelled y (by simp only [List.mem_append]; exact .inr (.inl (hpp (.inl hy))))
      · exact h.labelled y (by simp only [List.mem_append]; exact .inr (.inl (hpp (.inr hy))))
      · exact h.labelled y (by simp only [List.mem_append]; exact .inr (.inr hy))
    · simpa [step] using h1
    · intro k j hk
      have := h.height k j hk
      simp only [step, List.length_append]
      omega
    · intro k j hk x hx t ht m hm
      have hlt := h.height k j hk
      simp only [step] at hx hm
      rw [h3]
      refine h.reacted k j hk x ?_ t ht m ?_
      · rw [List.getD_eq_getElem?_getD, List.getElem?_append_left (by omega), ← List.getD_eq_getElem?_getD] at hx
        exact hx
      · rw [List.take_append_of_le_length (by omega)] at hm
        exact hm
  | lose i =>
    simp only [step]
    cases hx : c.pool[i]? with
    | none => exact ⟨n, .refl n, h⟩
    | some x =>
      obtain ⟨hi, rfl⟩ := List.getElem?_eq_some_iff.1 hx
      have hp : (c.pool ++ c.lost).Perm (c.pool.eraseIdx i ++ (c.lost ++ [c.pool[i]])) := by
        refine ((List.getElem_cons_eraseIdx_perm hi).symm.append_right c.lost).trans ?_
        rw [← List.append_assoc]
        exact (List.perm_append_singleton _ _).symm
      refine ⟨n, .refl n, ?_, h.ledger, h.pending.trans (hp.filterMap _), h.height, h.reacted⟩
      intro y hy
      refine h.labelled y ?_
      rcases List.mem_append.1 hy with hy | hy
      · simp only [List.mem_append]; exact .inl hy
      · exact List.mem_append_right _ (hp.mem_iff.2 hy)
  | afterCommit k rng height =>
    cases height with
    | zero => exact ⟨n, .refl n, h⟩
    | succ j =>
      simp only [step]
      split
      · rename_i hj
        have hsub : ∀ x ∈ (c.blocks.take (j + 2)).flatten, Labelled x := by
          intro x hx
          obtain ⟨b, hb, hx⟩ := List.mem_flatten.1 hx
          exact h.labelled x (by simp only [List.mem_append]; exact .inl (List.mem_flatten.2 ⟨b, List.mem_of_mem_take hb, hx⟩))
        have hpre : ∀ v, Exonum.accepted N.toEnv OMap.empty (c.blocks.take v).flatten <+: n.ledger := by
          intro v
          rw [h.ledger]
          conv => rhs; rw [← List.take_append_drop v c.blocks, List.flatten_append, Exonum.accepted_append]
          exact List.prefix_append _ _
        obtain ⟨n', hr, h1, h2, h3, h4, h5⟩ := process_sim (n := n) (L := (c.blocks.take (j + 2)).flatten) hsub (hpre _) (k := k) (rng := rng) hev
          (xs := c.blocks.getD j []) (fun x hx => h.labelled x (by simp only [List.mem_append]; exact .inl (mem_flatten_of_getD hx))) (hrust k rng j rfl) 0
        refine ⟨n', hr, ?_, ?_, ?_, ?_, ?_⟩
        · intro y hy
          simp only [List.mem_append] at hy
          rcases hy with hy | (hy | hy) | hy
          · exact h.labelled y (by simp only [List.mem_append]; exact .inl hy)
          · exact h.labelled y (by simp only [List.mem_append]; exact .inr (.inl hy))
          · exact h4 y hy
          · exact h.labelled y (by simp only [List.mem_append]; exact .inr (.inr hy))
        · rw [h1]; exact h.ledger
        · rw [h2]
          refine (h.pending.append_right _).trans ?_
          simp only [List.filterMap_append, List.append_assoc]
          exact List.Perm.append_left _ List.perm_append_comm
        · intro k' j' hk'
          dsimp only at hk' ⊢
          split at hk'
          · rcases List.mem_cons.1 hk' with heq | hk'
            · cases heq; exact hj
            · exact h.height k' j' hk'
          · exact h.height k' j' hk'
        · intro k' j' hk' x hx t ht m hm
          dsimp only at hk' hx hm
          have hold : (k', j' + 1) ∈ c.processed → (k', m) ∈ n'.reacted := fun hk' => h3 _ (h.reacted k' j' hk' x hx t ht m hm)
          split at hk'
          · rename_i hb
            rcases List.mem_cons.1 hk' with heq | hk'
            · cases heq
              refine h5 hb x hx t ht m ?_
              rw [List.take_add_one (i := j + 1), List.flatten_append, Exonum.accepted_append]
              rw [List.getElem?_append_left (List.getElem?_eq_some_iff.1 hm).1]
              exact hm
            · exact hold hk'
          · exact hold hk'
      · exact ⟨n, .refl n, h⟩

/-- every schedule of blocks corresponds to a schedule of the network -/
theorem run_sim (hP : ∀ i, P (.deliver i)) (evs : List BlockEvent) (hev : ∀ ev ∈ evs, OnBlocks P ev) (hrust : RustRun N evs) :
    ∃ l : List Event, (∀ ev ∈ l, P ev) ∧ Rel N (run N evs) (Network.run N l) := by
  induction evs using List.reverseRecOn with
  | nil =>
    exact ⟨[], by simp, by simp [run, genesis], rfl, by simp [run, genesis, Network.run, Network.empty], fun k h hk => (by cases hk), fun k h hk => (by cases hk)⟩
  | append_singleton evs ev ih =>
    obtain ⟨l, hl, hrel⟩ := ih (fun x hx => hev x (by simp [hx])) fun pre k rng h hp => hrust pre k rng h (hp.trans (List.prefix_append _ _))
    obtain ⟨n', ⟨l', hl', rfl⟩, hrel'⟩ := step_sim hrel hP (hev ev (by simp)) (by
      rintro k rng j rfl
      exact hrust evs k rng j (List.prefix_refl _))
    refine ⟨l ++ l', fun x hx => ?_, ?_⟩
    · rcases List.mem_append.1 hx with h | h
      · exact hl x h
      · exact hl' x h
    · rw [run_snoc]
      unfold Network.run
      rw [List.foldl_append]
      exact hrel'

end Server.Chain
end CB
