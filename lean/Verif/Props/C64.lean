import Verif.Lemmas.Evm
import Verif.Spec.ExampleEvm
/-!
# C64, C65: what the minter's address holds on the chain

C55 and C56 compare the ledgers with what the minter's address received and spent, on a chain that agrees with the minter's log.
Here the chain is a process of its own that runs beside the minter (Spec/Evm.lean), with the code of the helper contract, and the
comparison is with the balances of the minter's address.
-/

namespace EvmMinter
open Spec Helper

section
variable [Keccak]
variable {minter helper : Address} {good : Address → Prop} {w : World} {v : Evm}

/-- **C64.** At every moment of every joint execution (unless an upgrade lowers the next nonce, and the native ledger was not
registered as the ledger of a token): the native twin tokens in circulation, together with all that is owed to users in native
tokens, are covered by the balance of the minter's address. -/
theorem C64_native_reserve (h : Joint minter helper good w v) (hn : NonceNeverLowered w.mem.m.log) (hb : BurnsSmall w.mem.m.log)
    (hc : NoCollision w.mem.m.log) (hreg : w.mem.m.st.erc20Tokens.getEntry w.mem.m.st.nativeLedgerId = none) :
    w.minted w.mem.m.st.nativeLedgerId + total (v.chain.nativeOwed w) w.mem.m.log ≤
      v.acc.native minter + w.burned w.mem.m.st.nativeLedgerId := by
  have h1 := C55_native_solvent h.reachable hn hb hreg (joint_agrees h hn hc)
  have h2 := (jointInv h hn).native
  omega

/-- **C64.** The same for every supported token with a good contract: the twin tokens in circulation, together with what is owed, are
covered by the tokens that the minter's address holds. -/
theorem C64_token_reserve (h : Joint minter helper good w v) (hn : NonceNeverLowered w.mem.m.log) (hc : NoCollision w.mem.m.log)
    {ledger : Principal} {c : Address} {sym : String} (hreg : w.mem.m.st.erc20Tokens.getEntry ledger = some (c, sym))
    (hl : ledger ≠ w.mem.m.st.nativeLedgerId) (hg : good c) :
    w.minted ledger + total (v.chain.tokenOwed w ledger) w.mem.m.log ≤ v.acc.tokens c minter + w.burned ledger := by
  have h1 := C56_token_solvent h.reachable hn hreg hl (joint_agrees h hn hc)
  have h2 := (jointInv h hn).tokens c hg
  omega

/-! ## Pending transactions are funded -/

/-- The most that a transaction costs. -/
def Tx.maxCost (tx : Tx) : Nat := tx.amount + tx.gasLimit * tx.maxFeePerGas

/-- The tokens of contract `c` that a transaction transfers if it succeeds. -/
def Tx.tokensOf (c : Address) (tx : Tx) : Nat := if tx.destination = c ∧ tx.data ≠ [] then beNat (tx.data.drop 36) else 0

/-- A transaction of the log whose nonce is not used on the chain belongs to a withdrawal without a transaction on the chain. -/
theorem pending_request (h : Joint minter helper good w v) (hn : NonceNeverLowered w.mem.m.log) (hc : NoCollision w.mem.m.log) {e : Event}
    {i : LedgerBurnIndex} {tx : Tx} (he : e ∈ w.mem.m.log) (ht : recordedFor e = some (i, tx))
    (hm : ∀ f ∈ v.mined, f.signed.tx.nonce ≠ tx.nonce) :
    ∃ r : Request, r.intoEvent ∈ w.mem.m.log ∧ r.burnIndex = i ∧ PaySound r tx ∧ v.chain.minedFor w.mem.m.log i = none := by
  have hR := run_of_reachable h.reachable hn
  obtain ⟨r, h1, h2, h3⟩ := recorded_sound hR hn he ht
  refine ⟨r, h1, h2, h3.pay, ?_⟩
  cases hf : v.chain.minedFor w.mem.m.log i with
  | none => rfl
  | some f =>
    obtain ⟨k1, k2⟩ := (EvmChain.minedFor_eq (joint_agrees h hn hc) hR hn).1 hf
    exact absurd (Core.unique_nonce (run_txInv hR hn).1 (recordedFor_core hR hn k2 rfl) (recordedFor_core hR hn he ht)) (hm f k1)

/-- Transactions of the log with different nonces belong to different withdrawals. -/
theorem indices_nodup {log : List Event} {s : State} (hR : Run log s) (hn : NonceNeverLowered log) {idx : Tx → LedgerBurnIndex} {l : List Tx}
    (hl : ∀ tx ∈ l, ∃ e ∈ log, recordedFor e = some (idx tx, tx)) (hd : (l.map Tx.nonce).Nodup) : (l.map idx).Nodup := by
  induction l with
  | nil => exact List.nodup_nil
  | cons a t ih =>
    rw [List.map_cons, List.nodup_cons] at hd ⊢
    refine ⟨fun hh => hd.1 ?_, ih (fun tx htx => hl tx (by simp [htx])) hd.2⟩
    obtain ⟨b, hb, hi⟩ := List.mem_map.1 hh
    obtain ⟨e, he, h1⟩ := hl a (by simp)
    obtain ⟨e', he', h2⟩ := hl b (by simp [hb])
    rw [hi] at h2
    exact List.mem_map.2 ⟨b, hb, Core.unique_nonce (run_txInv hR hn).1 (recordedFor_core hR hn he' h2) (recordedFor_core hR hn he h1)⟩

/-- **C65.** Take transactions that the minter has created, replaced or signed, with different nonces, none of them used on the chain. The
balance of the minter's address suffices for all of them, at their maximum cost; provided that the ledger has not burned more than
was minted. -/
theorem C65_native_funded (h : Joint minter helper good w v) (hn : NonceNeverLowered w.mem.m.log) (hb : BurnsSmall w.mem.m.log)
    (hc : NoCollision w.mem.m.log) (hreg : w.mem.m.st.erc20Tokens.getEntry w.mem.m.st.nativeLedgerId = none)
    (hburn : w.burned w.mem.m.st.nativeLedgerId ≤ w.minted w.mem.m.st.nativeLedgerId) {l : List Tx}
    (hl : ∀ tx ∈ l, ∃ e ∈ w.mem.m.log, ∃ i, recordedFor e = some (i, tx)) (hd : (l.map Tx.nonce).Nodup)
    (hm : ∀ tx ∈ l, ∀ f ∈ v.mined, f.signed.tx.nonce ≠ tx.nonce) : (l.map Tx.maxCost).sum ≤ v.acc.native minter := by
  classical
  have h1 := C64_native_reserve h hn hb hc hreg
  suffices hs : (l.map Tx.maxCost).sum ≤ total (v.chain.nativeOwed w) w.mem.m.log by omega
  have hR := run_of_reachable h.reachable hn
  let idx : Tx → LedgerBurnIndex := fun tx => if hx : tx ∈ l then (hl tx hx).choose_spec.2.choose else 0
  have hidx : ∀ tx ∈ l, ∃ e ∈ w.mem.m.log, recordedFor e = some (idx tx, tx) := fun tx hx => by
    simp only [idx, hx, dif_pos]
    exact ⟨_, (hl tx hx).choose_spec.1, (hl tx hx).choose_spec.2.choose_spec⟩
  clear_value idx
  let key : Event → Option LedgerBurnIndex
    | .acceptedNativeWithdrawalRequest r => some r.ledgerBurnIndex
    | .acceptedErc20WithdrawalRequest r => some r.nativeLedgerBurnIndex
    | _ => none
  refine sum_le_of_keys (key := idx) (key' := key) (indices_nodup hR hn hidx hd) fun tx htx => ?_
  obtain ⟨e, he, ht⟩ := hidx tx htx
  obtain ⟨r, h2, h3, h4, h5⟩ := pending_request h hn hc he ht (hm tx htx)
  refine .inr ⟨_, h2, ?_, ?_⟩
  · rw [← h3]; cases r <;> rfl
  · cases r with
    | native q =>
      have hq := hb.1 q h2
      have h6 := NativeSound.amount h4 (by unfold u256Max; omega)
      have h7 : q.ledgerBurnIndex = idx tx := h3
      simp only [Request.intoEvent, EvmChain.nativeOwed, h7, h5]
      exact Nat.le_of_eq h6
    | erc20 q =>
      have hq := hb.2 q h2
      have h6 := Erc20Sound.fee h4 (by unfold u256Max; omega)
      have h7 : q.nativeLedgerBurnIndex = idx tx := h3
      simp only [Request.intoEvent, EvmChain.nativeOwed, h7, h5]
      have h8 := Erc20Sound.amount h4
      unfold Tx.maxCost
      womega

/-- **C65.** The tokens of a good contract that the minter's address holds suffice for all transfers of such transactions. -/
theorem C65_token_funded (h : Joint minter helper good w v) (hn : NonceNeverLowered w.mem.m.log) (hc : NoCollision w.mem.m.log)
    {ledger : Principal} {c : Address} {sym : String} (hreg : w.mem.m.st.erc20Tokens.getEntry ledger = some (c, sym))
    (hne : ledger ≠ w.mem.m.st.nativeLedgerId) (hg : good c) (hburn : w.burned ledger ≤ w.minted ledger) {l : List Tx}
    (hl : ∀ tx ∈ l, ∃ e ∈ w.mem.m.log, ∃ i, recordedFor e = some (i, tx)) (hd : (l.map Tx.nonce).Nodup)
    (hm : ∀ tx ∈ l, ∀ f ∈ v.mined, f.signed.tx.nonce ≠ tx.nonce) : (l.map (Tx.tokensOf c)).sum ≤ v.acc.tokens c minter := by
  classical
  have h1 := C64_token_reserve h hn hc hreg hne hg
  suffices hs : (l.map (Tx.tokensOf c)).sum ≤ total (v.chain.tokenOwed w ledger) w.mem.m.log by omega
  have hR := run_of_reachable h.reachable hn
  have ha := joint_agrees h hn hc
  obtain ⟨s, hs, hR', _⟩ := replayed h.reachable hn
  have wf := (registry_of_tracks (tracks h.reachable)).wf
  have hreg' := (DMKM.getEntry_eq wf).1 hreg
  let idx : Tx → LedgerBurnIndex := fun tx => if hx : tx ∈ l then (hl tx hx).choose_spec.2.choose else 0
  have hidx : ∀ tx ∈ l, ∃ e ∈ w.mem.m.log, recordedFor e = some (idx tx, tx) := fun tx hx => by
    simp only [idx, hx, dif_pos]
    exact ⟨_, (hl tx hx).choose_spec.1, (hl tx hx).choose_spec.2.choose_spec⟩
  clear_value idx
  let key : Event → Option LedgerBurnIndex
    | .acceptedErc20WithdrawalRequest r => some r.nativeLedgerBurnIndex
    | _ => none
  refine sum_le_of_keys (key := idx) (key' := key) (indices_nodup hR hn hidx hd) fun tx htx => ?_
  obtain ⟨e, he, ht⟩ := hidx tx htx
  obtain ⟨r, h2, h3, h4, h5⟩ := pending_request h hn hc he ht (hm tx htx)
  cases r with
  | native q =>
    left
    simp only [Tx.tokensOf, NativeSound.data h4, ne_eq, not_true_eq_false, and_false, if_false]
  | erc20 q =>
    by_cases hq : q.erc20ContractAddress = c
    · right
      refine ⟨_, h2, by rw [← h3]; rfl, ?_⟩
      have hql : q.erc20LedgerId = ledger := by
        obtain ⟨⟨_, sym', k1, _⟩, _⟩ := C49_truthful h.reachable h2
        have k1 := (DMKM.getEntryAlt_eq wf).1 k1
        rw [hq] at k1
        exact (DMKM.Has.unique_alt wf k1 hreg').1
      have hbd : (Request.erc20 q).Bounded := run_bounded hR h2
      have hp : Erc20Sound q tx := h4
      have hlen : Erc20Transfer.encode ⟨q.destination, q.withdrawalAmount⟩ ≠ [] := by
        simp [Erc20Transfer.encode, transferSelector]
      have e3 : (Erc20Transfer.encode ⟨q.destination, q.withdrawalAmount⟩).drop 36 = toBE 32 q.withdrawalAmount := by
        simp [Erc20Transfer.encode, transferSelector, Address.toWord]
      have h6 : Tx.tokensOf c tx = q.withdrawalAmount := by
        simp only [Tx.tokensOf, hp.dest, hp.data, hq, hlen, ne_eq, not_false_eq_true, and_self, if_true, e3,
          beNat_toBE_of_lt (Nat.lt_of_lt_of_eq hbd.1 (by decide : U256 = 256 ^ 32))]
      have h7 : q.nativeLedgerBurnIndex = idx tx := h3
      have hgb : ¬ w.GaveBack ledger q.erc20LedgerBurnIndex := by
        intro hh
        obtain ⟨x, rr, k1, k2, k3, k4, k5⟩ := reimbursement_owed h.reachable hn hs (gaveBack_iff.1 hh)
        have hx : x = .erc20 q.nativeLedgerBurnIndex q.erc20LedgerId q.erc20LedgerBurnIndex :=
          knownReimb_unique h.reachable k3 (.inl ⟨.erc20 q, rfl, h2⟩) (by rw [k1, ← hql]; rfl) (by rw [k2]; rfl)
        rcases k5 with ⟨n, i, f, q', j1, j2, j3, j4, j5⟩ | ⟨j1, j2⟩
        · rw [hx] at j4
          cases q' with
          | native q' => cases j4
          | erc20 q' =>
            simp only [ReimbIndex.ofRequest, ReimbIndex.erc20.injEq] at j4
            have hi : i = q.nativeLedgerBurnIndex := by
              have := ((known_of_replay hs).processed j3).1
              rw [← this, j4.1]; rfl
            subst hi
            have hf := EvmChain.minedFor_finalized ha hR' hn j1
            rw [h7, h5] at hf; cases hf
        · rw [hx] at j2; cases j2
      simp only [Request.intoEvent, EvmChain.tokenOwed, h7, h5, h6, hql, hgb, true_and, not_false_eq_true, Option.any_none,
        Bool.false_eq_true, if_true]
      exact Nat.le_refl _
    · left
      simp only [Tx.tokensOf, Erc20Sound.dest h4, hq, false_and, if_false]

end

namespace Example
attribute [local instance] keccak

/-- Account 7 has funds. -/
def funded : Accounts := ⟨fun a => if a = 7 then 10000000000 else 0, fun _ a => if a = 7 then 5000 else 0⟩

def aliceDeposit (value : Nat) (token : Address) (amount : Nat) : Call := ⟨7, value, token, amount, ⟨principalWord alice, by decide⟩, 0⟩

/-- Alice deposits native tokens and tokens at the helper contract. The minter mints, and alice withdraws most of it. The minter has
signed the two transactions and is sending them. -/
def jointSending : List JointAction :=
  [.deposit (aliceDeposit 6000000000 0 0) 101 ⟨0x21, 3⟩, .deposit (aliceDeposit 0 usdc 1000) 101 ⟨0x21, 4⟩] ++
  sending.map .minter ++ [.minter (.answer 0 (.signatures [some sig, some sig]) 42), .send 0 nativeTx, .send 0 usdcTx]

/-- Both transactions are mined, the first one fails; there is a further deposit; the minter learns of the first transaction only. -/
def jointSent : List JointAction := jointSending ++
  [.mine ⟨nativeTx, nativeReceipt⟩, .minter (.answer 0 .sent 43), .mine ⟨usdcTx, usdcReceipt⟩,
    .deposit (aliceDeposit 123 0 0) 102 ⟨0x22, 5⟩, .minter (.answer 0 (.count (some 6)) 44),
    .minter (.answer 0 (.receipts [.ok (some nativeReceipt)]) 45)]

/-- A joint execution in which the hypotheses of C64 hold. The tokens are covered exactly; of the native tokens there are 123
more, the deposit that the minter has not seen, and the part of the fees that was not used. -/
theorem C64_example : ∃ w v, Joint 0xa11ce 0xcafe (fun c => c = usdc) w v ∧ decide (v.chain.agreesWith w.mem.m.log = true ∧
    w.mem.m.st.erc20Tokens.getEntry usdcLedger = some (usdc, "ckUSDC") ∧ w.mem.m.st.erc20Tokens.getEntry ledger = none ∧
    w.mem.m.st.nativeLedgerId = ledger ∧ w.mem.m.log.length = 13 ∧
    w.minted ledger = 6000000000 ∧ w.burned ledger = 5002729900 ∧ total (v.chain.nativeOwed w) w.mem.m.log = 4999117900 ∧
    v.acc.native 0xa11ce = 6000000000 - (840000 + 2400000) + 123 ∧
    w.minted usdcLedger = 1000 ∧ w.burned usdcLedger = 700 ∧ total (v.chain.tokenOwed w usdcLedger) w.mem.m.log = 0 ∧
    v.acc.tokens usdc 0xa11ce = 300) = true :=
  jointAfter_joint (addr := 0xa11ce) (helper := 0xcafe) (t := usdc) (arg := initArg) (acc := funded) (nonce := 5) (l := jointSent) (by decide +kernel)

/-- The transactions of this execution, before they are mined: at most 4999999900 + 2730000 are needed, and 6000000000 are there; of
the tokens, 700 are needed and 1000 are there. -/
theorem C65_example : ∃ w v, Joint 0xa11ce 0xcafe (fun c => c = usdc) w v ∧ decide (v.mined = [] ∧ v.sent = [nativeTx, usdcTx] ∧
    w.burned ledger ≤ w.minted ledger ∧ w.burned usdcLedger ≤ w.minted usdcLedger ∧
    nativeTx.tx.maxCost = 4999999900 ∧ usdcTx.tx.maxCost = 2730000 ∧ v.acc.native 0xa11ce = 6000000000 ∧
    usdcTx.tx.tokensOf usdc = 700 ∧ v.acc.tokens usdc 0xa11ce = 1000) = true :=
  jointAfter_joint (addr := 0xa11ce) (helper := 0xcafe) (t := usdc) (arg := initArg) (acc := funded) (nonce := 5) (l := jointSending) (by decide +kernel)

end Example
end EvmMinter
