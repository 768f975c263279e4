import Verif.Spec.Solvency
import Verif.Props.C15
import Verif.Props.C53
/-!
# C55, C56: the tokens on the ledgers are covered by what the minter's address holds on the chain
-/

namespace EvmMinter
open Spec

section
variable [Keccak]

/-- A signed transaction belongs to the withdrawal it was signed for. -/
theorem signed_core {log : List Event} {s : State} (h : Run log s) (hn : NonceNeverLowered log) {i : LedgerBurnIndex} {x : SignedTx}
    (he : .signedTransaction i x ∈ log) : Core s.txs x.tx.nonce i x.tx.core := by
  obtain ⟨pre, post, s₁, s₂, rfl, hr, hem, ha, hr₂⟩ := run_mem h he (by rintro a hh; cases hh)
  obtain ⟨inv, tl, _⟩ := run_txInv hr (nonceNeverLowered_prefix hn)
  obtain ⟨c, hc, hct⟩ := hem
  rw [MKM.getEntry_eq] at hc
  obtain ⟨tx₀, h1, h2, h3⟩ := tl.core3 _ _ _ (.inl ⟨c, hc, rfl⟩)
  have := (run_txInv h hn).2.1.core1 i tx₀ (List.mem_append_left _ h1)
  rw [h2, h3, hct] at this
  exact this

/-- The transactions of one withdrawal have the same nonce. -/
theorem signed_nonce {log : List Event} {s : State} (h : Run log s) (hn : NonceNeverLowered log) {i : LedgerBurnIndex} {x y : SignedTx}
    (hx : .signedTransaction i x ∈ log) (hy : .signedTransaction i y ∈ log) : x.tx.nonce = y.tx.nonce :=
  Core.unique_nonce (run_txInv h hn).1 (signed_core h hn hx) (signed_core h hn hy)

/-- A signed transaction was signed for one withdrawal. -/
theorem signed_index {log : List Event} {s : State} (h : Run log s) (hn : NonceNeverLowered log) {i j : LedgerBurnIndex} {x : SignedTx}
    (hx : .signedTransaction i x ∈ log) (hy : .signedTransaction j x ∈ log) : i = j :=
  (Core.unique (run_txInv h hn).1 (signed_core h hn hx) (signed_core h hn hy)).1

namespace Spec.EvmChain
variable {ch : EvmChain} {log : List Event} {s : State}

omit [Keccak] in
theorem unique_of_nonces (hnd : (ch.mined.map fun f => f.signed.tx.nonce).Nodup) {f g : FinalizedTx} (hf : f ∈ ch.mined) (hg : g ∈ ch.mined)
    (he : f.signed.tx.nonce = g.signed.tx.nonce) : f = g := by
  generalize ch.mined = l at hnd hf hg
  induction l with
  | nil => cases hf
  | cons a t ih =>
    rw [List.map_cons, List.nodup_cons] at hnd
    rcases List.mem_cons.1 hf with rfl | hf' <;> rcases List.mem_cons.1 hg with rfl | hg'
    · rfl
    · exact absurd (List.mem_map.2 ⟨g, hg', he.symm⟩) hnd.1
    · exact absurd (List.mem_map.2 ⟨f, hf', he⟩) hnd.1
    · exact ih hnd.2 hf' hg'

/-- The transaction of a withdrawal that is in the chain. -/
theorem minedFor_eq (ha : ch.Agrees log) (h : Run log s) (hn : NonceNeverLowered log) {i : LedgerBurnIndex} {f : FinalizedTx} :
    ch.minedFor log i = some f ↔ f ∈ ch.mined ∧ .signedTransaction i f.signed ∈ log := by
  constructor
  · intro hf
    exact ⟨List.mem_of_find?_eq_some hf, by simpa using List.find?_some hf⟩
  · rintro ⟨h1, h2⟩
    cases hm : ch.minedFor log i with
    | none => exact absurd h2 (by simpa using List.find?_eq_none.1 hm f h1)
    | some g =>
      have hg1 : g ∈ ch.mined := List.mem_of_find?_eq_some hm
      have hg2 : .signedTransaction i g.signed ∈ log := by simpa using List.find?_some hm
      rw [unique_of_nonces ha.nonces h1 hg1 (signed_nonce h hn h2 hg2)]

/-- A recorded finalized transaction is the one in the chain. -/
theorem minedFor_finalized (ha : ch.Agrees log) (h : Run log s) (hn : NonceNeverLowered log) {n : TransactionNonce} {i : LedgerBurnIndex}
    {f : FinalizedTx} (hf : s.txs.finalized.Has n i f) : ch.minedFor log i = some f := by
  obtain ⟨inv, tl, _⟩ := run_txInv h hn
  obtain ⟨h1, ⟨j, h2⟩, h3, _⟩ := tl.finLog _ _ _ hf
  obtain ⟨g, hg, hr⟩ := ha.receipts _ _ h1
  obtain ⟨k, hk⟩ := ha.signed g hg
  have hs : g.signed = f.signed := ha.noCollision k j _ _ hk h2 (by rw [h3, ← hr, ha.hash g hg])
  have hgf : g = f := by
    cases g; cases f
    simp only [FinalizedTx.mk.injEq] at *
    exact ⟨hs, hr⟩
  subst hgf
  have hc : Core s.txs n i g.signed.tx.core := .inr (.inr ⟨g, hf, rfl⟩)
  have hnn : g.signed.tx.nonce = n := (Core.processed inv hc).2.1
  have := (Core.unique inv (hnn ▸ hc) (signed_core h hn h2)).1
  subst this
  exact (minedFor_eq ha h hn).2 ⟨hg, h2⟩

/-- What left the minter's address is covered by the requests of the log. -/
theorem mined_covers (ha : ch.Agrees log) (h : Run log s) (hn : NonceNeverLowered log)
    {key : Event → Option LedgerBurnIndex} {f : FinalizedTx → Nat}
    (hkey : ∀ (r : Request) (m : FinalizedTx), r.intoEvent ∈ log → m ∈ ch.mined → Sound s.evmNetwork r m.signed.tx →
      f m = 0 ∨ key r.intoEvent = some r.burnIndex) :
    (ch.mined.map f).sum ≤ (log.map fun e => (key e).elim 0 fun k => (ch.minedFor log k).elim 0 f).sum := by
  classical
  let idx : FinalizedTx → LedgerBurnIndex := fun m => if hm : m ∈ ch.mined then (ha.signed m hm).choose else 0
  have hidx : ∀ m ∈ ch.mined, .signedTransaction (idx m) m.signed ∈ log := fun m hm => by
    simp only [idx, hm, dif_pos]
    exact (ha.signed m hm).choose_spec
  refine sum_le_of_keys (key := idx) (key' := key) ?_ fun m hm => ?_
  · have hnd := ha.nonces
    have hsub : ∀ m ∈ ch.mined, .signedTransaction (idx m) m.signed ∈ log := hidx
    clear_value idx
    generalize ch.mined = l at hnd hsub
    induction l with
    | nil => exact List.nodup_nil
    | cons a t ih =>
      rw [List.map_cons, List.nodup_cons] at hnd ⊢
      refine ⟨fun hh => hnd.1 ?_, ih hnd.2 fun m hm => hsub m (by simp [hm])⟩
      obtain ⟨b, hb, he⟩ := List.mem_map.1 hh
      have h1 := hsub a (by simp)
      have h2 := hsub b (by simp [hb])
      rw [he] at h2
      exact List.mem_map.2 ⟨b, hb, signed_nonce h hn h2 h1⟩
  · obtain ⟨r, h1, h2, h3⟩ := recorded_sound h hn (hidx m hm) rfl
    rcases hkey r m h1 hm h3 with h0 | hk
    · exact .inl h0
    · refine .inr ⟨_, h1, by rw [hk, h2], ?_⟩
      rw [hk, h2]
      simp only [Option.elim, (minedFor_eq ha h hn).2 ⟨hm, hidx m hm⟩]
      exact Nat.le_refl _

/-- The accepted deposits are among those of the chain. -/
theorem deposits_cover (ha : ch.Agrees log) {s : State} (h : replay log = .ok s) (g : Deposit → Nat) :
    ((acceptedDeposits log).map g).sum ≤ (ch.deposits.map g).sum := by
  have hnd : ((acceptedDeposits log).map Deposit.source).Nodup := by
    have hc := fun src => (C01_deposit_credited_at_most_once h src).2.1
    clear ha h
    induction log with
    | nil => exact List.nodup_nil
    | cons e t ih =>
      have ht : ∀ src, count (isAcceptOf src) t ≤ 1 := fun src => by
        have := hc src
        simp only [count, List.countP_cons] at this ⊢
        omega
      unfold acceptedDeposits
      rw [List.filterMap_cons]
      cases hd : e.deposit? with
      | none => exact ih ht
      | some d =>
        simp only [List.map_cons, List.nodup_cons]
        refine ⟨fun hh => ?_, ih ht⟩
        obtain ⟨d', hd', hs⟩ := List.mem_map.1 hh
        obtain ⟨e', he', hde⟩ := List.mem_filterMap.1 hd'
        have h1 := hc d.source
        simp only [count, List.countP_cons] at h1
        have h2 : 0 < List.countP (isAcceptOf d.source) t := List.countP_pos_iff.2 ⟨e', he', by
          cases e' <;> simp only [Event.deposit?, Option.some.injEq, reduceCtorEq] at hde <;> subst hde <;> simpa [isAcceptOf, Deposit.source] using hs⟩
        have h3 : isAcceptOf d.source e = true := by
          cases e <;> simp only [Event.deposit?, Option.some.injEq, reduceCtorEq] at hd <;> subst hd <;> simp [isAcceptOf, Deposit.source]
        rw [h3] at h1
        simp only [if_true] at h1
        omega
  refine sum_le_of_keys (key := Deposit.source) (key' := fun d => some d.source) hnd fun d hd => .inr ?_
  obtain ⟨e, he, hde⟩ := List.mem_filterMap.1 hd
  exact ⟨d, ha.deposited e he d hde, rfl, Nat.le_refl _⟩

end Spec.EvmChain

/-- The most that a transaction of a native withdrawal takes from the minter's address. -/
theorem native_cost {q : NativeRequest} {f : FinalizedTx} (hp : NativeSound q f.signed.tx) (hw : q.withdrawalAmount < 2 ^ 256 - 1)
    (hg : f.receipt.gasUsed ≤ f.signed.tx.gasLimit) (hpr : f.receipt.effectiveGasPrice ≤ f.signed.tx.maxFeePerGas) :
    feePaid f + f.signed.tx.amount ≤ q.withdrawalAmount := by
  have h1 := hp.amount hw
  have h2 : f.receipt.effectiveGasPrice * f.receipt.gasUsed ≤ f.signed.tx.gasLimit * f.signed.tx.maxFeePerGas := by
    rw [Nat.mul_comm f.signed.tx.gasLimit]; exact Nat.mul_le_mul hpr hg
  unfold feePaid
  womega

/-- The most that a transaction of an ERC-20 withdrawal takes from the minter's address. -/
theorem erc20_cost {q : Erc20Request} {f : FinalizedTx} (hp : Erc20Sound q f.signed.tx) (hw : q.maxTransactionFee < 2 ^ 256 - 1)
    (hg : f.receipt.gasUsed ≤ f.signed.tx.gasLimit) (hpr : f.receipt.effectiveGasPrice ≤ f.signed.tx.maxFeePerGas) :
    feePaid f + valueSent f ≤ q.maxTransactionFee := by
  have h1 := hp.fee hw
  have h2 : f.receipt.effectiveGasPrice * f.receipt.gasUsed ≤ f.signed.tx.gasLimit * f.signed.tx.maxFeePerGas := by
    rw [Nat.mul_comm f.signed.tx.gasLimit]; exact Nat.mul_le_mul hpr hg
  have h3 : valueSent f = 0 := by
    unfold valueSent
    rw [hp.amount]
    split <;> rfl
  rw [h3]
  unfold feePaid
  womega

/-- **C55**: in every execution (unless an upgrade lowers the next nonce), as long as no token is registered with the native
ledger, for every chain that agrees with the log: what was minted on the native ledger, minus what was burned there, plus all
that is owed for withdrawals, is at most what the minter's address received on the chain less all that left it. -/
theorem C55_native_solvent {w : World} (h : Reachable w) (hn : NonceNeverLowered w.mem.m.log) (hb : BurnsSmall w.mem.m.log)
    (hreg : w.mem.m.st.erc20Tokens.getEntry w.mem.m.st.nativeLedgerId = none) {ch : EvmChain} (ha : ch.Agrees w.mem.m.log) :
    w.minted w.mem.m.st.nativeLedgerId + total (ch.nativeOwed w) w.mem.m.log + ch.spent ≤
      ch.received + w.burned w.mem.m.st.nativeLedgerId := by
  obtain ⟨s, hs, hR, _⟩ := replayed h hn
  have wf := (registry_of_tracks (tracks h)).wf
  have hne : ∀ q : Erc20Request, .acceptedErc20WithdrawalRequest q ∈ w.mem.m.log → q.erc20LedgerId ≠ w.mem.m.st.nativeLedgerId := by
    intro q hq hh
    obtain ⟨⟨_, sym', h1, _⟩, _⟩ := C49_truthful h hq
    have h1 := (DMKM.getEntry_eq wf).2 ((DMKM.getEntryAlt_eq wf).1 h1)
    rw [hh, hreg] at h1; cases h1
  have h1 := C03_total h w.mem.m.st.nativeLedgerId
  rw [deposits_native h hreg] at h1
  have h2 : total nativeIn w.mem.m.log ≤ ch.received := by
    refine Nat.le_trans (Nat.le_of_eq ?_) (EvmChain.deposits_cover ha hs _)
    generalize w.mem.m.log = l
    induction l with
    | nil => rfl
    | cons e t ih =>
      simp only [acceptedDeposits, total, List.map_cons, List.sum_cons] at ih ⊢
      rw [ih]
      cases e <;> simp [List.filterMap_cons, Event.deposit?, nativeIn]
  let idx : Event → Option LedgerBurnIndex
    | .acceptedNativeWithdrawalRequest r => some r.ledgerBurnIndex
    | .acceptedErc20WithdrawalRequest r => some r.nativeLedgerBurnIndex
    | _ => none
  let key : Event → Option LedgerBurnIndex
    | .acceptedNativeWithdrawalRequest r => some r.ledgerBurnIndex
    | .failedErc20WithdrawalRequest r => some r.ledgerBurnIndex
    | _ => none
  have h3 := EvmChain.mined_covers ha hR hn (key := idx) (f := fun f => feePaid f + valueSent f) (by
    intro r _ _ _ _
    cases r <;> exact .inr rfl)
  have h4 := reimbursed_covers h w.mem.m.st.nativeLedgerId (key := key) (by
    intro x hx hp
    obtain ⟨e, he, _, ⟨r, rfl, rfl⟩ | ⟨r, rfl, rfl⟩ | ⟨r, rfl, rfl⟩⟩ := hx.burns (native := w.mem.m.st.nativeLedgerId)
    · exact ⟨_, he, rfl⟩
    · exact absurd hp (hne r he)
    · exact ⟨_, he, rfl⟩)
  have h5 := burned_covers h w.mem.m.st.nativeLedgerId
  have hsound : ∀ (r : Request) (f : FinalizedTx), r.intoEvent ∈ w.mem.m.log → ch.minedFor w.mem.m.log r.burnIndex = some f →
      f ∈ ch.mined ∧ PaySound r f.signed.tx := by
    intro r f hr hf
    obtain ⟨k1, k2⟩ := (EvmChain.minedFor_eq ha hR hn).1 hf
    obtain ⟨r', k3, k4, k5⟩ := recorded_sound hR hn k2 rfl
    have := request_unique hR hn k3 hr k4
    subst this
    exact ⟨k1, k5.pay⟩
  have h6 : (w.mem.m.log.map fun e => (idx e).elim 0 (fun k => (ch.minedFor w.mem.m.log k).elim 0 fun fin => feePaid fin + valueSent fin) + ((key e).elim 0 (w.givenBack w.mem.m.st.nativeLedgerId) + ch.nativeOwed w e)).sum ≤
      total (Event.burnedOn w.mem.m.st.nativeLedgerId w.mem.m.st.nativeLedgerId) w.mem.m.log := by
    refine sum_map_le fun e he => ?_
    cases e <;> try exact Nat.zero_le _
    case acceptedNativeWithdrawalRequest r =>
      have hbr : Event.burnedOn w.mem.m.st.nativeLedgerId w.mem.m.st.nativeLedgerId (.acceptedNativeWithdrawalRequest r) = r.withdrawalAmount := by
        simp [Event.burnedOn, Event.burnAmounts]
      rw [hbr]
      simp only [idx, key, Option.elim, EvmChain.nativeOwed]
      have hcov : ∀ f, ch.minedFor w.mem.m.log r.ledgerBurnIndex = some f → feePaid f + f.signed.tx.amount ≤ r.withdrawalAmount := by
        intro f hf
        obtain ⟨k1, k2⟩ := hsound (.native r) f he hf
        exact native_cost k2 (hb.1 r he) (ha.gas f k1) (ha.price f k1)
      by_cases hg : w.reimbursements w.mem.m.st.nativeLedgerId r.ledgerBurnIndex = []
      · have hg0 : w.givenBack w.mem.m.st.nativeLedgerId r.ledgerBurnIndex = 0 := by unfold World.givenBack; rw [hg]; rfl
        have hng : ¬ w.GaveBack w.mem.m.st.nativeLedgerId r.ledgerBurnIndex := fun hh => gaveBack_iff.1 hh hg
        rw [hg0]
        cases hf : ch.minedFor w.mem.m.log r.ledgerBurnIndex with
        | none => simp
        | some f =>
          have := hcov f hf
          simp only [hng, not_false_eq_true, and_true, valueSent]
          cases hst : f.receipt.status <;> simp <;> womega
      · obtain ⟨x, rr, k1, k2, k3, k4, k5⟩ := reimbursement_owed h hn hs hg
        have hx : x = .native r.ledgerBurnIndex :=
          knownReimb_unique h k3 (.inl ⟨.native r, rfl, he⟩) (by rw [k1]; rfl) (by rw [k2]; rfl)
        rcases k5 with ⟨n, i, f, q, j1, j2, j3, j4, j5⟩ | ⟨j1, j2⟩
        · rw [hx] at j4
          cases q with
          | erc20 q => cases j4
          | native q =>
            simp only [ReimbIndex.ofRequest, ReimbIndex.native.injEq] at j4
            have hi : i = r.ledgerBurnIndex := by
              have := ((known_of_replay hs).processed j3).1
              rw [← this, j4]; rfl
            subst hi
            have hf := EvmChain.minedFor_finalized ha hR hn j1
            have := hcov f hf
            rw [k4, j5]
            simp only [hf, gaveBack_iff, hg, j2, Transactions.failureReimbursement, ne_eq, not_false_eq_true, not_true_eq_false, and_false, if_false, valueSent]
            womega
        · exfalso
          have := event_of_burn h he j1 (x := (w.mem.m.st.nativeLedgerId, r.ledgerBurnIndex)) (by simp [Event.burns])
            (by rw [hx] at j2; simp only [ReimbIndex.native.injEq] at j2; simp [Event.burns, j2])
          cases this
    case acceptedErc20WithdrawalRequest r =>
      have hbr : r.maxTransactionFee ≤ Event.burnedOn w.mem.m.st.nativeLedgerId w.mem.m.st.nativeLedgerId (.acceptedErc20WithdrawalRequest r) := by
        simp only [Event.burnedOn, Event.burnAmounts, List.filter_cons, beq_self_eq_true, if_true, List.map_cons, List.sum_cons]
        exact Nat.le_add_right _ _
      refine Nat.le_trans ?_ hbr
      simp only [idx, key, Option.elim, EvmChain.nativeOwed]
      cases hf : ch.minedFor w.mem.m.log r.nativeLedgerBurnIndex with
      | none => simp
      | some f =>
        obtain ⟨k1, k2⟩ := hsound (.erc20 r) f he hf
        have := erc20_cost k2 (hb.2 r he) (ha.gas f k1) (ha.price f k1)
        simpa using this
    case failedErc20WithdrawalRequest r =>
      have hbr : Event.burnedOn w.mem.m.st.nativeLedgerId w.mem.m.st.nativeLedgerId (.failedErc20WithdrawalRequest r) = r.reimbursedAmount := by
        simp [Event.burnedOn, Event.burnAmounts]
      rw [hbr]
      simp only [idx, key, Option.elim, EvmChain.nativeOwed]
      by_cases hg : w.reimbursements w.mem.m.st.nativeLedgerId r.ledgerBurnIndex = []
      · have hg0 : w.givenBack w.mem.m.st.nativeLedgerId r.ledgerBurnIndex = 0 := by unfold World.givenBack; rw [hg]; rfl
        have hng : ¬ w.GaveBack w.mem.m.st.nativeLedgerId r.ledgerBurnIndex := fun hh => gaveBack_iff.1 hh hg
        rw [hg0, if_neg hng]
        simp
      · obtain ⟨x, rr, k1, k2, k3, k4, k5⟩ := reimbursement_owed h hn hs hg
        have hx : x = .native r.ledgerBurnIndex :=
          knownReimb_unique h k3 (.inr ⟨r, rfl, he⟩) (by rw [k1]; rfl) (by rw [k2]; rfl)
        rw [if_pos (gaveBack_iff.2 hg), k4]
        rcases k5 with ⟨n, i, f, q, j1, j2, j3, j4, j5⟩ | ⟨j1, j2⟩
        · exfalso
          rw [hx] at j4
          cases q with
          | erc20 q => cases j4
          | native q =>
            simp only [ReimbIndex.ofRequest, ReimbIndex.native.injEq] at j4
            have hq := ((known_of_replay hs).processed j3).2
            have := event_of_burn h he hq (x := (w.mem.m.st.nativeLedgerId, r.ledgerBurnIndex)) (by simp [Event.burns])
              (by simp [Request.event, Event.burns, j4])
            cases this
        · rw [hx] at j2
          simp only [ReimbIndex.native.injEq] at j2
          have := event_of_burn h he j1 (x := (w.mem.m.st.nativeLedgerId, r.ledgerBurnIndex)) (by simp [Event.burns])
            (by simp [Event.burns, j2])
          cases this
          simp
  rw [sum_map_add, sum_map_add] at h6
  rw [minted_eq]
  unfold total at h5 h6 ⊢
  unfold total at h1 h2
  unfold EvmChain.spent
  womega

/-- **C56**: in every execution (unless an upgrade lowers the next nonce), for every supported token whose ledger is not the
native ledger and every chain that agrees with the log: what was minted on its ledger, minus what was burned there, plus all
that is owed for withdrawals, is at most what the minter's address received of the token on the chain less what it sent. -/
theorem C56_token_solvent {w : World} (h : Reachable w) (hn : NonceNeverLowered w.mem.m.log) {ledger : Principal} {c : Address} {sym : String}
    (hreg : w.mem.m.st.erc20Tokens.getEntry ledger = some (c, sym)) (hl : ledger ≠ w.mem.m.st.nativeLedgerId) {ch : EvmChain}
    (ha : ch.Agrees w.mem.m.log) :
    w.minted ledger + total (ch.tokenOwed w ledger) w.mem.m.log + ch.spentTokens c ≤ ch.receivedTokens c + w.burned ledger := by
  obtain ⟨s, hs, hR, _⟩ := replayed h hn
  have wf := (registry_of_tracks (tracks h)).wf
  have hreg' := (DMKM.getEntry_eq wf).1 hreg
  have hled : ∀ q : Erc20Request, .acceptedErc20WithdrawalRequest q ∈ w.mem.m.log → (q.erc20ContractAddress = c ↔ q.erc20LedgerId = ledger) := by
    intro q hq
    obtain ⟨⟨_, sym', h1, _⟩, _⟩ := C49_truthful h hq
    have h1 := (DMKM.getEntryAlt_eq wf).1 h1
    constructor
    · rintro rfl; exact (MKM.Has.unique_alt wf.map h1 hreg').1
    · rintro rfl; exact (MKM.Has.unique_key h1 hreg').1
  have h1 := C03_total h ledger
  rw [deposits_token h hreg hl] at h1
  have h2 : total (erc20In c) w.mem.m.log ≤ ch.receivedTokens c := by
    refine Nat.le_trans (Nat.le_of_eq ?_) (EvmChain.deposits_cover ha hs _)
    generalize w.mem.m.log = l
    induction l with
    | nil => rfl
    | cons e t ih =>
      simp only [acceptedDeposits, total, List.map_cons, List.sum_cons] at ih ⊢
      rw [ih]
      cases e <;> simp [List.filterMap_cons, Event.deposit?, erc20In]
  let idx : Event → Option LedgerBurnIndex
    | .acceptedErc20WithdrawalRequest r => if r.erc20LedgerId = ledger then some r.nativeLedgerBurnIndex else none
    | _ => none
  let key : Event → Option LedgerBurnIndex
    | .acceptedErc20WithdrawalRequest r => if r.erc20LedgerId = ledger then some r.erc20LedgerBurnIndex else none
    | _ => none
  have h3 := EvmChain.mined_covers ha hR hn (key := idx) (f := tokensSent c) (by
    intro r m hr _ hso
    cases r with
    | native q =>
      left
      have hp : NativeSound q m.signed.tx := hso.pay
      simp only [tokensSent, hp.data, ne_eq, not_true_eq_false, and_false, if_false]
      split <;> rfl
    | erc20 q =>
      by_cases hq : q.erc20LedgerId = ledger
      · right; simp [idx, Request.intoEvent, Request.burnIndex, hq]
      · left
        have hp : Erc20Sound q m.signed.tx := hso.pay
        have : ¬ q.erc20ContractAddress = c := fun hh => hq ((hled q hr).1 hh)
        simp only [tokensSent, hp.dest, this, false_and, if_false]
        split <;> rfl)
  have h4 := reimbursed_covers h ledger (key := key) (by
    intro x hx hp
    obtain ⟨e, he, _, ⟨r, rfl, rfl⟩ | ⟨r, rfl, rfl⟩ | ⟨r, rfl, rfl⟩⟩ := hx.burns (native := w.mem.m.st.nativeLedgerId)
    · exact absurd hp.symm hl
    · refine ⟨_, he, ?_⟩
      have hp : r.erc20LedgerId = ledger := hp
      simp [key, hp, ReimbIndex.burnInBlock]
    · exact absurd hp.symm hl)
  have h5 := burned_covers h ledger
  have h6 : (w.mem.m.log.map fun e => (idx e).elim 0 (fun k => (ch.minedFor w.mem.m.log k).elim 0 (tokensSent c)) + ((key e).elim 0 (w.givenBack ledger) + ch.tokenOwed w ledger e)).sum ≤
      total (Event.burnedOn w.mem.m.st.nativeLedgerId ledger) w.mem.m.log := by
    refine sum_map_le fun e he => ?_
    cases e <;> try exact Nat.zero_le _
    rename_i r
    simp only [idx, key, Option.elim, EvmChain.tokenOwed]
    by_cases hq : r.erc20LedgerId = ledger
    · have hb : Event.burnedOn w.mem.m.st.nativeLedgerId ledger (.acceptedErc20WithdrawalRequest r) = r.withdrawalAmount := by
        simp [Event.burnedOn, Event.burnAmounts, Ne.symm hl, hq]
      rw [hb, if_pos hq, if_pos hq]
      simp only [hq, true_and]
      have hF : ∀ f, ch.minedFor w.mem.m.log r.nativeLedgerBurnIndex = some f →
          tokensSent c f = if f.receipt.status = .success then r.withdrawalAmount else 0 := by
        intro f hf
        obtain ⟨_, k2⟩ := (EvmChain.minedFor_eq ha hR hn).1 hf
        obtain ⟨r', k3, k4, k5⟩ := recorded_sound hR hn k2 rfl
        have := request_unique hR hn k3 (r' := .erc20 r) he k4
        subst this
        have hp : Erc20Sound r f.signed.tx := k5.pay
        have hbd : (Request.erc20 r).Bounded := run_bounded hR k3
        have hc := (hled r he).2 hq
        have hlen : Erc20Transfer.encode ⟨r.destination, r.withdrawalAmount⟩ ≠ [] := by
          simp [Erc20Transfer.encode, transferSelector]
        have e3 : (Erc20Transfer.encode ⟨r.destination, r.withdrawalAmount⟩).drop 36 = toBE 32 r.withdrawalAmount := by
          simp [Erc20Transfer.encode, transferSelector, Address.toWord]
        simp only [tokensSent, hp.dest, hp.data, hc, hlen, ne_eq, not_false_eq_true, and_self, if_true, e3,
          beNat_toBE_of_lt (Nat.lt_of_lt_of_eq hbd.1 (by decide : U256 = 256 ^ 32))]
        cases f.receipt.status <;> simp
      by_cases hg : w.reimbursements ledger r.erc20LedgerBurnIndex = []
      · have hg0 : w.givenBack ledger r.erc20LedgerBurnIndex = 0 := by unfold World.givenBack; rw [hg]; rfl
        rw [hg0]
        cases hf : ch.minedFor w.mem.m.log r.nativeLedgerBurnIndex with
        | none =>
          simp only [Nat.zero_add]
          split
          · exact Nat.le_refl _
          · exact Nat.zero_le _
        | some f =>
          simp only [hF f hf, Nat.zero_add]
          by_cases hst : f.receipt.status = .success
          · rw [if_pos hst, if_neg fun hh => hh.2 (by simp [hst])]
            exact Nat.le_refl _
          · rw [if_neg hst, Nat.zero_add]
            split
            · exact Nat.le_refl _
            · exact Nat.zero_le _
      · obtain ⟨x, rr, k1, k2, k3, k4, k5⟩ := reimbursement_owed h hn hs hg
        have hx : x = .erc20 r.nativeLedgerBurnIndex r.erc20LedgerId r.erc20LedgerBurnIndex :=
          knownReimb_unique h k3 (.inl ⟨.erc20 r, rfl, he⟩) (by rw [k1, ← hq]; rfl) (by rw [k2]; rfl)
        rcases k5 with ⟨n, i, f, q, j1, j2, j3, j4, j5⟩ | ⟨_, j2⟩
        · rw [hx] at j4
          cases q with
          | native q => cases j4
          | erc20 q =>
            simp only [ReimbIndex.ofRequest, ReimbIndex.erc20.injEq] at j4
            have hi : i = r.nativeLedgerBurnIndex := by
              have := ((known_of_replay hs).processed j3).1
              rw [← this, j4.1]; rfl
            subst hi
            have := processed_of_finalized h hs (r := .erc20 r) he j1.2
            simp only [Request.burnIndex] at this
            rw [j3] at this
            cases this
            have hf := EvmChain.minedFor_finalized ha hR hn j1
            rw [k4, j5]
            rw [if_neg fun hh => hh.1 (gaveBack_iff.2 hg), hf]
            simp only [hF f hf]
            rw [if_neg (by rw [j2]; decide)]
            simp only [Transactions.failureReimbursement, Nat.zero_add, Nat.add_zero]
            exact Nat.le_refl _
        · rw [hx] at j2; cases j2
    · rw [if_neg hq, if_neg hq, if_neg (fun hh => hq hh.1)]
      exact Nat.zero_le _
  rw [sum_map_add, sum_map_add] at h6
  rw [minted_eq]
  unfold total at h5 h6 ⊢
  unfold total at h1 h2
  unfold EvmChain.spentTokens
  womega

/-! ## Examples -/

/-- A check that implies agreement. -/
def Spec.EvmChain.agreesWith (ch : EvmChain) (log : List Event) : Bool :=
  decide (ch.mined.map fun f => f.signed.tx.nonce).Nodup &&
  ch.mined.all (fun f => log.any fun | .signedTransaction _ x => x == f.signed | _ => false) &&
  ch.mined.all (fun f => decide (f.receipt.gasUsed ≤ f.signed.tx.gasLimit ∧ f.receipt.effectiveGasPrice ≤ f.signed.tx.maxFeePerGas ∧
    f.receipt.transactionHash = f.signed.hash)) &&
  log.all (fun | .signedTransaction _ x => log.all fun | .signedTransaction _ y => x.hash != y.hash || x == y | _ => true
               | .finalizedTransaction _ r => ch.mined.any fun f => f.receipt == r
               | e => e.deposit?.all fun d => decide (d ∈ ch.deposits))

theorem Spec.EvmChain.agrees_of_check {ch : EvmChain} {log : List Event} (h : ch.agreesWith log = true) : ch.Agrees log := by
  simp only [agreesWith, Bool.and_eq_true, decide_eq_true_eq, List.all_eq_true] at h
  obtain ⟨⟨⟨h1, h2⟩, h3⟩, h4⟩ := h
  refine ⟨h1, fun f hf => ?_, fun f hf => (h3 f hf).1, fun f hf => (h3 f hf).2.1, fun f hf => (h3 f hf).2.2, ?_, ?_, ?_⟩
  · obtain ⟨e, he, hx⟩ := List.any_eq_true.1 (h2 f hf)
    cases e <;> simp only [beq_iff_eq, reduceCtorEq] at hx
    subst hx
    exact ⟨_, he⟩
  · intro i j x y hx hy he
    have := List.all_eq_true.1 (h4 _ hx) _ hy
    simpa [he] using this
  · intro i r hr
    obtain ⟨f, hf, he⟩ := List.any_eq_true.1 (h4 _ hr)
    exact ⟨f, hf, by simpa using he⟩
  · intro e he d hd
    have := h4 e he
    cases e <;> simp only [Event.deposit?, reduceCtorEq, Option.some.injEq] at hd <;> subst hd <;> simpa [Event.deposit?] using this

end

namespace Example
attribute [local instance] keccak

/-- Two deposits, all minted; two withdrawals whose transactions are created, signed and sent; the minter has learned that the
first one failed. -/
def sending : List Action := [.start (.addToken manager usdcArg) 4] ++ scrapeLogs [nativeLog 6000000000 3, tokenLog 1000 4] ++
  [.start .mint 8, .execute 0, .deliver 0 9, .execute 0, .deliver 0 10, .execute 0, .deliver 0 11,
    .start (.withdrawNative alice 5000000000 to) 15, .execute 0, .deliver 0 17, .execute 0, .deliver 0 19,
    .start (.withdrawErc20 alice 700 usdcLedger to (some gasEstimate)) 25, .execute 0, .deliver 0 27, .execute 0, .deliver 0 29,
    .execute 0, .deliver 0 30, .start (.retrieve (some gasEstimate)) 40, .answer 0 (.count (some 5)) 41]

def nativeTx : SignedTx := ⟨⟨11155111, 5, 2, 42, 21000, 0xbeef, 4999117900, [], []⟩, sig⟩
def usdcTx : SignedTx := ⟨⟨11155111, 6, 2, 42, 65000, usdc, 0, [0xa9, 0x05, 0x9c, 0xbb] ++ toBE 32 0xbeef ++ toBE 32 700, []⟩, sig⟩
def nativeReceipt : Receipt := ⟨1, 200, 40, 21000, .failure, nativeTx.hash⟩
def usdcReceipt : Receipt := ⟨2, 201, 40, 60000, .success, usdcTx.hash⟩

def sent : List Action := sending ++ [.answer 0 (.signatures [some sig, some sig]) 42, .answer 0 .sent 43,
  .answer 0 (.count (some 6)) 44, .answer 0 (.receipts [.ok (some nativeReceipt)]) 45]

/-- Both deposits are on the chain, and a third that the minter has not seen; both transactions are mined, of the second the
minter does not know yet. -/
def evmChain : EvmChain where
  deposits := [.native ⟨33, 101, 3, 7, 6000000000, alice, none⟩, .erc20 ⟨33, 101, 4, 7, 1000, alice, usdc, none⟩,
    .native ⟨34, 102, 5, 7, 123, alice, none⟩]
  mined := [⟨nativeTx, nativeReceipt⟩, ⟨usdcTx, usdcReceipt⟩]

/-- The hypotheses of C55 and C56 hold, the minter owes the amount of the failed transaction, and the bounds are nearly
attained: the difference is what was deposited without the minter noticing, and the fees not used up. -/
theorem C55_example : ∃ w, Reachable w ∧ decide (evmChain.agreesWith w.mem.m.log = true ∧
    w.mem.m.st.erc20Tokens.getEntry usdcLedger = some (usdc, "ckUSDC") ∧ w.mem.m.st.erc20Tokens.getEntry ledger = none ∧
    w.mem.m.st.nativeLedgerId = ledger ∧ w.mem.m.log.length = 13 ∧
    w.minted ledger = 6000000000 ∧ w.burned ledger = 5002729900 ∧ total (evmChain.nativeOwed w) w.mem.m.log = 4999117900 ∧
    evmChain.received = 6000000123 ∧ evmChain.spent = 840000 + 2400000 ∧
    w.minted usdcLedger = 1000 ∧ w.burned usdcLedger = 700 ∧ total (evmChain.tokenOwed w usdcLedger) w.mem.m.log = 0 ∧
    evmChain.receivedTokens usdc = 1000 ∧ evmChain.spentTokens usdc = 700) = true :=
  after_reachable (arg := initArg) (l := sent) (by decide +kernel)

end Example
end EvmMinter
