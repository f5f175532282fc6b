import Verif.Props.Final
import Verif.Props.Order
import Verif.Lemmas.Rest
/-!
# C112 on the Exonum ledger
-/

namespace CB
open Spec

namespace Exonum

/-- **C112** On the Exonum ledger a submission that is refused for a reason that does not pass is refused ever after, whatever is submitted in between. -/
theorem C112_refused_ever_after (E : Env) (l later : List Envelope) (hl : ∀ x ∈ l ++ later, Labelled x) (x : Envelope) (t : SignedTx)
    (hx : SignedTx.fromBytes x.data = .ok t) (e : ValErr) (h : t.validate E (toStore (deliverAll E OMap.empty l)) = .err e) (hp : ¬ Passing e) :
    ∀ s, verifyAndStore E (deliverAll E OMap.empty (l ++ later)) x ≠ .ok s := by
  have hl0 : ∀ x ∈ l, Labelled x := fun x hx => hl x (by simp [hx])
  obtain ⟨m, hm, hg⟩ := refines E l hl0
  obtain ⟨m', hm', hg'⟩ := refines E (l ++ later) hl
  have hval : t.validate E (toStore (deliverAll E OMap.empty l)) = t.validate E m.toStore :=
    C34_elections_isolated E _ _ (lawful (wf_deliverAll hl0)) hm.lawful t fun _ _ id _ => hg id
  have hval' : t.validate E (toStore (deliverAll E OMap.empty (l ++ later))) = t.validate E m'.toStore :=
    C34_elections_isolated E _ _ (lawful (wf_deliverAll hl)) hm'.lawful t fun _ _ id _ => hg' id
  have hext : Extends m m' := by
    intro id u hu
    have hu : m.getTransaction id = some u := hu
    rw [← hg] at hu
    show m'.getTransaction id = some u
    rw [← hg', deliverAll_append]
    exact getTransaction_keeps hu
  intro s hs
  obtain ⟨_, u, hu, hv, _⟩ := verifyAndStore_ok.1 hs
  rw [hx] at hu
  cases hu
  rw [hval] at h
  rw [hval'] at hv
  exact C112_refusals_are_final E m m' hm.replay hm'.replay hext t e h hp hv

/-- The sample election: a vote for another ballot, before and after others vote. -/
example : (match (SignedTx.vote ⟨{ Toy.vote (Toy.key 31) [] [] with ballotId := str "b2" }, Toy.sig 31⟩).validate Toy.env
      (toStore (deliverAll Toy.env OMap.empty ((Toy.complete.take 8).map Envelope.ofTx))) with | .err e => some e | _ => none) = some .ballotDoesNotExist ∧
    ∀ x ∈ (Toy.complete.take 8).map Envelope.ofTx ++ (Toy.complete.drop 8).map Envelope.ofTx, Labelled x := by
  refine ⟨by decide +kernel, fun x hx => ?_⟩
  rw [← List.map_append, List.take_append_drop] at hx
  obtain ⟨t, ht, rfl⟩ := List.mem_map.1 hx
  exact (C37_envelope_roundtrip t (toy_rustData t ht)).2.2.1

end Exonum
end CB
