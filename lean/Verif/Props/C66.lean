import Verif.Props.C64
/-!
# C66: on the chain, every withdrawal is paid at most once, from its own burn, and not if it is given back
-/

namespace EvmMinter
open Spec Helper

section
variable [Keccak]
variable {minter helper : Address} {good : Address → Prop} {w : World} {v : Evm}

/-- **C66.** Every transaction of the minter's address on the chain was made for a withdrawal that the minter recorded, and what it costs
and moves was burned for it (`World.PaidBy`, see C57). Two transactions on the chain are for different withdrawals. -/
theorem C66_paid_once (h : Joint minter helper good w v) (hn : NonceNeverLowered w.mem.m.log) (hb : BurnsSmall w.mem.m.log) :
    ∃ idx : FinalizedTx → LedgerBurnIndex, (∀ f ∈ v.mined, .signedTransaction (idx f) f.signed ∈ w.mem.m.log ∧ w.PaidBy (idx f) f.signed.tx ∧
      f.signed.tx.chainId = w.mem.m.st.evmNetwork.chainId) ∧ (v.mined.map idx).Nodup := by
  classical
  have I := jointInv h hn
  have hR := run_of_reachable h.reachable hn
  have key : ∀ f ∈ v.mined, ∃ i, .signedTransaction i f.signed ∈ w.mem.m.log := fun f hf => I.signed _ (I.sent f hf)
  let idx : FinalizedTx → LedgerBurnIndex := fun f => if hf : f ∈ v.mined then (key f hf).choose else 0
  have hidx : ∀ f ∈ v.mined, .signedTransaction (idx f) f.signed ∈ w.mem.m.log := fun f hf => by
    simp only [idx, hf, dif_pos]
    exact (key f hf).choose_spec
  refine ⟨idx, fun f hf => ?_, ?_⟩
  · obtain ⟨k1, k2, -⟩ := recorded_paid h.reachable hn hb (hidx f hf) rfl
    exact ⟨hidx f hf, k1, k2⟩
  · have hnd := I.nonces
    clear_value idx
    generalize v.mined = l at hidx hnd
    induction l with
    | nil => exact List.nodup_nil
    | cons a t ih =>
      rw [List.map_cons, List.nodup_cons] at hnd ⊢
      refine ⟨fun hh => hnd.1 ?_, ih (fun f hf => hidx f (by simp [hf])) hnd.2⟩
      obtain ⟨b, hb, he⟩ := List.mem_map.1 hh
      have h1 := hidx a (by simp)
      have h2 := hidx b (by simp [hb])
      rw [he] at h2
      exact List.mem_map.2 ⟨b, hb, signed_nonce hR hn h2 h1⟩

/-- **C66.** If a transaction for a withdrawal succeeded on the chain, then no burn of this withdrawal is given back: neither the
one on the native ledger nor, for a token withdrawal, the one on the ledger of the token — whether or not the minter knows of the
transaction yet. -/
theorem C66_not_given_back (h : Joint minter helper good w v) (hn : NonceNeverLowered w.mem.m.log) (hc : NoCollision w.mem.m.log)
    {f : FinalizedTx} (hf : f ∈ v.mined) (hs : f.receipt.status = .success) {i : LedgerBurnIndex}
    (hi : .signedTransaction i f.signed ∈ w.mem.m.log) :
    ¬ w.GaveBack w.mem.m.st.nativeLedgerId i ∧ ∀ r, .acceptedErc20WithdrawalRequest r ∈ w.mem.m.log → r.nativeLedgerBurnIndex = i →
      ¬ w.GaveBack r.erc20LedgerId r.erc20LedgerBurnIndex := by
  have hR := run_of_reachable h.reachable hn
  have ha := joint_agrees h hn hc
  obtain ⟨s, hs', hR', _⟩ := replayed h.reachable hn
  have hmf : v.chain.minedFor w.mem.m.log i = some f := (EvmChain.minedFor_eq ha hR hn).2 ⟨hf, hi⟩
  obtain ⟨r, h1, h2, -⟩ := recorded_sound hR hn hi rfl
  -- a finalized transaction of the withdrawal is `f`
  have key : ∀ n g, s.txs.finalized.Has n i g → g.receipt.status ≠ .failure := by
    intro n g hg hst
    have := EvmChain.minedFor_finalized ha hR' hn hg
    rw [hmf, Option.some.injEq] at this
    rw [this, hst] at hs; cases hs
  refine ⟨fun hh => ?_, fun q hq hqi hh => ?_⟩
  · obtain ⟨x, rr, k1, k2, k3, k4, k5⟩ := reimbursement_owed h.reachable hn hs' (gaveBack_iff.1 hh)
    rcases k5 with ⟨n, j, g, q, j1, j2, j3, j4, j5⟩ | ⟨j1, j2⟩
    · obtain ⟨p1, p2⟩ := (known_of_replay hs').processed j3
      have hqr : q.event = r.intoEvent := by
        refine event_of_burn h.reachable p2 h1 (x := (w.mem.m.st.nativeLedgerId, i)) ?_ ?_
        · rw [j4] at k1 k2
          cases q with
          | native q =>
            have k2 : q.ledgerBurnIndex = i := k2
            simp [Request.event, Event.burns, k2]
          | erc20 q =>
            have k1 : q.erc20LedgerId = w.mem.m.st.nativeLedgerId := k1
            have k2 : q.erc20LedgerBurnIndex = i := k2
            simp [Request.event, Event.burns, k1, k2]
        · rw [← h2]; cases r <;> simp [Request.intoEvent, Event.burns, Request.burnIndex]
      have : j = i := by
        rw [← p1, ← h2]
        cases q <;> cases r <;> simp only [Request.event, Request.intoEvent, reduceCtorEq, Event.acceptedNativeWithdrawalRequest.injEq,
          Event.acceptedErc20WithdrawalRequest.injEq] at hqr <;> rw [hqr]
      subst this
      exact key n g j1 j2
    · rw [j2] at k2
      have k2 : rr.ledgerBurnIndex = i := k2
      have := event_of_burn h.reachable j1 h1 (x := (w.mem.m.st.nativeLedgerId, i)) (by simp [Event.burns, k2])
        (by rw [← h2]; cases r <;> simp [Request.intoEvent, Event.burns, Request.burnIndex])
      cases r <;> cases this
  · obtain ⟨x, rr, k1, k2, k3, k4, k5⟩ := reimbursement_owed h.reachable hn hs' (gaveBack_iff.1 hh)
    have hx : x = .erc20 q.nativeLedgerBurnIndex q.erc20LedgerId q.erc20LedgerBurnIndex :=
      knownReimb_unique h.reachable k3 (.inl ⟨.erc20 q, rfl, hq⟩) (by rw [k1]; rfl) (by rw [k2]; rfl)
    rcases k5 with ⟨n, j, g, q', j1, j2, j3, j4, j5⟩ | ⟨j1, j2⟩
    · rw [hx] at j4
      cases q' with
      | native q' => cases j4
      | erc20 q' =>
        simp only [ReimbIndex.ofRequest, ReimbIndex.erc20.injEq] at j4
        have : j = i := by
          have := ((known_of_replay hs').processed j3).1
          rw [← this, ← hqi, j4.1]; rfl
        subst this
        exact key n g j1 j2
    · rw [hx] at j2; cases j2

end

namespace Example
attribute [local instance] keccak

/-- In the execution of C64 both transactions are on the chain, with the burns 3 and 5 on the native ledger; the first one failed and will be
given back, the other one succeeded. After the reimbursement the first burn is given back, and none of the second withdrawal. -/
theorem C66_example : ∃ w v, Joint 0xa11ce 0xcafe (fun c => c = usdc) w v ∧
    decide (v.mined.map (fun f => f.receipt.status) = [.failure, .success] ∧
      (w.mem.m.log.filterMap fun | .signedTransaction i x => some (i, x) | _ => none) = [(3, nativeTx), (5, usdcTx)] ∧
      (w.mem.m.log.filterMap fun | .acceptedErc20WithdrawalRequest r => some r.erc20LedgerBurnIndex | _ => none) = [1] ∧
      w.reimbursements ledger 3 ≠ [] ∧ w.reimbursements ledger 5 = [] ∧ w.reimbursements usdcLedger 1 = []) = true :=
  jointAfter_joint (addr := 0xa11ce) (helper := 0xcafe) (t := usdc) (arg := initArg) (acc := funded) (nonce := 5)
    (l := jointSent ++ [.minter (.start .reimbursement 50), .minter (.execute 0), .minter (.deliver 0 51)]) (by decide +kernel)

end Example
end EvmMinter
