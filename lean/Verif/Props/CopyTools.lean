import Verif.Props.Copy
import Verif.Props.Cli
/-!
# C114 with the tools: the answer of one node, posted to another
-/

namespace CB
open Spec

namespace Exonum

/-- **C114** An election that the end-to-end command verifies on one node can be copied with the tools: the body of that node's answer to the query, saved to a file and posted with
the command line to another node (which holds nothing of the kind), makes the other node answer with the very same body, and the end-to-end command find the same there. -/
theorem C114_copied_with_the_tools (N : NodeEnv) (R : Cli.Randomness) (source target : List Envelope) (hs : ∀ x ∈ source, Labelled x) (ht : ∀ x ∈ target, Labelled x) (id p : Str)
    (hq : E2e.queryPrefix id = .ok p) (txs : List SignedTx) (hlist : Api.getAll (deliverAll N.toEnv OMap.empty source) (some p) = .ok txs)
    (hp : ∀ t ∈ txs, JsonProperties 119 t) (hf : ∀ t ∈ txs, forget t = t) (m : MemStore) (hv : Client.e2e N.toEnv (deliverAll N.toEnv OMap.empty source) id = .ok m)
    (hno : ∀ u, getTransaction (deliverAll N.toEnv OMap.empty target) u.id = some u → ¬ p <+: u.id.toString ∧ ∀ t ∈ txs, ¬ Conflicts t u)
    (w w' : Bytes) (hw : ∀ b ∈ w, Json.isWs b = true) (hw' : ∀ b ∈ w', Json.isWs b = true) (L : Json.Layout) :
    ∃ o, Cli.run N (deliverAll N.toEnv OMap.empty target) R none (.post (w ++ Json.printTxs L txs ++ w')) = .ok o ∧
      Api.getAll (deliverAll N.toEnv OMap.empty (target ++ o.posted)) (some p) = .ok txs ∧ Client.e2e N.toEnv (deliverAll N.toEnv OMap.empty (target ++ o.posted)) id = .ok m := by
  have hr := Json.rustData_getAll hlist
  obtain ⟨o, h1, h2⟩ := Cli.C80_lists_are_posted N (deliverAll N.toEnv OMap.empty target) R txs L w w' hr hp hw hw'
  rw [Json.C74_e2e_verifies_the_ledger N.toEnv _ id p txs hq hlist hp hf] at hv
  have h3 : Api.getAll (deliverAll N.toEnv OMap.empty (target ++ o.posted)) (some p) = .ok txs := by
    rw [h2]
    exact C114_listing_is_carried_over N.toEnv source target hs ht p txs hlist m hv hf hno
  refine ⟨o, h1, h3, ?_⟩
  rw [Json.C74_e2e_verifies_the_ledger N.toEnv _ id p txs hq h3 hp hf]
  exact hv

/-- The sample election, copied with the tools to a node that holds another election. -/
example : ∃ o m txs, Api.getAll (deliverAll Toy.env OMap.empty (Toy.complete.map Envelope.ofTx)) (some (Toy.eid.toString.take 15)) = .ok txs ∧ txs.length = 19 ∧
    Cli.run Toy.node (deliverAll Toy.env OMap.empty [Envelope.ofTx Toy.otherTx]) (Cli.toyR 7) none (.post (Json.printTxs .compact txs)) = .ok o ∧
    Client.e2e Toy.env (deliverAll Toy.env OMap.empty ([Envelope.ofTx Toy.otherTx] ++ o.posted)) Toy.eid.toString = .ok m := by
  have hsrc : ∀ x ∈ Toy.complete.map Envelope.ofTx, Labelled x := fun x hx => by
    obtain ⟨t, ht, rfl⟩ := List.mem_map.1 hx
    exact (C37_envelope_roundtrip t (toy_rustData t ht)).2.2.1
  have hq : E2e.queryPrefix Toy.eid.toString = .ok (Toy.eid.toString.take 15) := by decide +kernel
  obtain ⟨txs, h1, h2, _⟩ := (Api.C39_prefix_query_exact_partial Toy.env _ hsrc).1 (Toy.eid.toString.take 15)
  have hlen : (match Api.getAll (deliverAll Toy.env OMap.empty (Toy.complete.map Envelope.ofTx)) (some (Toy.eid.toString.take 15)) with
    | .ok l => decide (l.length = 19) && (match E2e.verify Toy.env l with | .ok _ => true | _ => false) | _ => false) = true := by decide +kernel
  rw [h1] at hlen
  simp only [Bool.and_eq_true, decide_eq_true_eq] at hlen
  have hmem : ∀ t ∈ txs, t ∈ Toy.complete := by
    intro t ht
    rcases stored_from Toy.env (l := []) (by simp) Toy.complete (fun t ht => ⟨toy_rustData t ht, toy_forget t ht⟩) t.id t ((h2 t).1 ht).1 with h | h
    · cases h
    · exact h.1
  cases hm : E2e.verify Toy.env txs with
  | ok m =>
    obtain ⟨o, ho, _, hv⟩ := C114_copied_with_the_tools Toy.node (Cli.toyR 7) _ [Envelope.ofTx Toy.otherTx] hsrc (fun x hx => by
        rw [List.mem_singleton.1 hx]
        exact (C37_envelope_roundtrip _ toyOther_rust).2.2.1) _ _ hq txs h1 (fun t ht => Json.toy_jsonProperties t (hmem t ht)) (fun t ht => toy_forget t (hmem t ht)) m
      ((Json.C74_e2e_verifies_the_ledger Toy.node.toEnv _ _ _ txs hq h1 (fun t ht => Json.toy_jsonProperties t (hmem t ht)) fun t ht => toy_forget t (hmem t ht)).trans hm)
      (fun u hu => by
        refine ⟨?_, fun t ht => (toy_elsewhere t u (hmem t ht) hu).2.2⟩
        rw [(toy_elsewhere Toy.endTx u (by simp [Toy.complete]) hu).1]
        decide +kernel) [] [] (by simp) (by simp) .compact
    rw [List.nil_append, List.append_nil] at ho
    exact ⟨o, m, txs, h1, hlen.1, ho, hv⟩
  | err e => rw [hm] at hlen; cases hlen.2
  | panic p => rw [hm] at hlen; cases hlen.2

end Exonum
end CB
