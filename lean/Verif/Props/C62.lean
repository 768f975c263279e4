import Verif.Model.Info
import Verif.Model.Lsm
import Verif.Model.Requests
import Verif.Model.Swap
import Verif.Lemmas.Sound
import Verif.Props.C02
import Verif.Props.C10
import Verif.Props.C21
import Verif.Props.C38
import Verif.Props.C58
/-!
# C62: what the minter tells about itself
-/

namespace EvmMinter
open Spec

namespace Spec

/-- The string shows the address: `0x` and 40 hexadecimal digits with its value. -/
def Shows (s : List Char) (a : Address) : Prop := ∃ digits, HexString 40 s digits ∧ a = base16 digits

end Spec

section
variable [Keccak]

theorem shows_display {a : Address} (h : a < 2 ^ 160) : Shows a.display a := C44_parse.1 (C44_round_trip h).1

/-- The configured helper contract has 20 bytes. -/
theorem run_helper_lt {log : List Event} {s : State} (h : Run log s) {a : Address} (ha : s.helperContractAddress = some a) :
    a < 2 ^ 160 := by
  obtain ⟨s₀, h1, _, _, h4⟩ := run_replay h
  have key : ∀ a, s₀.helperContractAddress = some a → a < 2 ^ 160 := by
    refine replay_induct (P := fun _ s => ∀ a, s.helperContractAddress = some a → a < 2 ^ 160) ?_ ?_ h1
    · intro arg s hi a ha
      simp only [State.ofInit, bind_ok', pure_ok', orErr_ok, u256OfNat_some] at hi
      obtain ⟨n, ⟨rfl, hn⟩, w, ⟨rfl, hw⟩, f, ⟨rfl, hf⟩, hp, hhp, l, ⟨rfl, hl⟩, p, ⟨rfl, hpp⟩, fs, hfs, d, ⟨rfl, hd⟩,
        wf, ⟨rfl, hwf⟩, _, hv, rfl⟩ := hi
      change hp = some a at ha
      subst ha
      unfold State.parseHelper at hhp
      split at hhp
      · cases hhp
      · rename_i str _
        cases hx : Address.parse str with
        | none => rw [hx] at hhp; cases hhp
        | some b => rw [hx] at hhp; cases hhp; exact C44_parse_range hx
    · intro log s e s' _ ih ha a hs
      by_cases he : ∃ arg, e = .upgrade arg
      · obtain ⟨arg, rfl⟩ := he
        simp only [applyEvent] at ha
        split at ha
        · rename_i s2 h3
          cases ha
          obtain ⟨helper, h5, h6, -⟩ := upgrade_ok h3
          rw [h6] at hs
          change helper = some a at hs
          subst hs
          unfold HelperUpd at h5
          split at h5
          · exact ih a h5.symm
          · obtain ⟨x, hx, hxa⟩ := h5
            cases hxa
            exact C44_parse_range hx
        · cases ha
      · have := congrArg UpgradableConfig.helperContractAddress ((applyEvent_frame ha).2.1 fun a ha => he ⟨a, ha⟩)
        exact ih a (Eq.trans this.symm hs)
  rw [h4] at ha
  exact key a ha

/-- **C62** (tokens and balances): the reply always exists. It lists every token that was registered, once, ordered by its
ledger, with the contract in a form that parses back to it, and beside it the balance: what was deposited of that token less what
was sent out. The same for the native balance. -/
theorem C62_info {log : List Event} {s : State} (h : Run log s) (key : Option Bytes) (observed : Option BlockNumber)
    (cache : CachedEstimate) :
    ∃ i toks, s.minterInfo key observed cache = .ok i ∧ toks.Perm (tokensOf log) ∧
      toks.Pairwise (fun t u => TOrd.lt t.erc20LedgerId u.erc20LedgerId = true) ∧
      i.supportedErc20Tokens.map (fun x => (x.symbol, x.ledger)) = toks.map (fun t => (t.symbol, t.erc20LedgerId)) ∧
      i.supportedErc20Tokens.map (·.contract) = i.erc20Balances.map (·.contract) ∧
      i.erc20Balances.length = toks.length ∧
      (∀ x ∈ i.erc20Balances.zip toks, Shows x.1.contract x.2.erc20ContractAddress ∧
        x.1.balance + s.txs.finalized.byAlt.sum (fun _ f => tokensSent x.2.erc20ContractAddress f) =
          total (erc20In x.2.erc20ContractAddress) log) ∧
      i.nativeBalance + s.txs.finalized.byAlt.sum (fun _ f => feePaid f + valueSent f) = total nativeIn log := by
  have R := registry_of_run h
  obtain ⟨r, e1, e2, e3⟩ := DMKM.iter_total R.wf
  have hs : s.supportedErc20Tokens = .ok (r.map fun x => ⟨s.evmNetwork, x.2.1, x.2.2, x.1⟩) := by
    simp [State.supportedErc20Tokens, e1, bind, Except.bind, pure, Except.pure]
  have hord : (r.map fun x : Principal × Address × String => (⟨s.evmNetwork, x.2.1, x.2.2, x.1⟩ : Erc20Token)).Pairwise
      (fun t u => TOrd.lt t.erc20LedgerId u.erc20LedgerId = true) := by
    rw [List.pairwise_map]; exact e3
  have hmem : ∀ t : Erc20Token, t ∈ (r.map fun x : Principal × Address × String => (⟨s.evmNetwork, x.2.1, x.2.2, x.1⟩ : Erc20Token)) ↔
      t ∈ tokensOf log := by
    intro t
    rw [List.mem_map]
    constructor
    · rintro ⟨⟨l, c, sym⟩, hx, rfl⟩
      exact (R.has _ _ _).1 ((e2 _ _ _).1 hx)
    · intro ht
      have hc := R.chain t ht
      refine ⟨(t.erc20LedgerId, t.erc20ContractAddress, t.symbol), (e2 _ _ _).2 ((R.has _ _ _).2 (by rw [← hc]; exact ht)), ?_⟩
      rw [← hc]
  generalize (r.map fun x : Principal × Address × String => (⟨s.evmNetwork, x.2.1, x.2.2, x.1⟩ : Erc20Token)) = toks at hs hord hmem
  refine ⟨_, toks, by simp only [State.minterInfo, hs, Res.ok_bind]; rfl, ?_, hord, ?_, ?_, ?_, ?_, (C21_live h).1⟩
  · refine (List.perm_ext_iff_of_nodup ?_ ?_).2 hmem
    · refine hord.imp fun {a b} hab hh => ?_
      subst hh
      rw [TOrd.irrefl] at hab
      cases hab
    · exact R.apart.imp fun {a b} hab hh => hab.2.1 (by rw [hh])
  · rw [List.map_map]; rfl
  · rw [List.map_map, List.map_map]; rfl
  · rw [List.length_map]
  · intro x hx
    simp only [List.zip_map_left, List.mem_map] at hx
    obtain ⟨⟨a, b⟩, hab, rfl⟩ := hx
    have hb : a ∈ toks ∧ a = b := by
      clear hs hord hmem
      induction toks with
      | nil => cases hab
      | cons t l ih =>
        simp only [List.zip_cons_cons, List.mem_cons, Prod.mk.injEq] at hab
        rcases hab with ⟨rfl, rfl⟩ | hab
        · exact ⟨List.mem_cons_self, rfl⟩
        · exact ⟨List.mem_cons_of_mem _ (ih hab).1, (ih hab).2⟩
    obtain ⟨hm, rfl⟩ := hb
    refine ⟨shows_display (run_token_lt h ((hmem _).1 hm)), ?_⟩
    obtain ⟨s₀, h1, _, _, h4⟩ := run_replay h
    have := C22_token_balance_exact h1 a.erc20ContractAddress
    rw [h4]
    exact this

/-- **C62** (addresses): the helper contract that is shown, in both queries, is the one whose logs are asked for, and the block
that is shown is the one after which scraping continues; without a helper contract none is shown. The address of the minter that
is shown is that of its key. -/
theorem C62_addresses {log : List Event} {s : State} (h : Run log s) {key : Option Bytes} {observed : Option BlockNumber}
    {cache : CachedEstimate} {i : MinterInfo} (hi : s.minterInfo key observed cache = .ok i) :
    (∀ str, i.helperContractAddress = some str → s.smartContractAddress = str ∧
      ∃ sc, s.nextScrape = .ok sc ∧ Shows str sc.contractAddress ∧ sc.lastScraped = i.lastScrapedBlockNumber) ∧
    (i.helperContractAddress = none → s.smartContractAddress = "N/A".toList ∧ ∀ sc, s.nextScrape ≠ .ok sc) ∧
    (∀ str, i.minterAddress = some str → ∃ k, key = some k ∧ Shows str (Keccak.hash k % 2 ^ 160)) ∧
    (i.minterAddress = none → key = none) := by
  simp only [State.minterInfo, Res.bind_ok, Res.pure_ok] at hi
  obtain ⟨_, _, _, _, rfl⟩ := hi
  refine ⟨fun str hs => ?_, fun hs => ?_, fun str hs => ?_, fun hs => ?_⟩
  · simp only [Option.map_eq_some_iff] at hs
    obtain ⟨a, ha, rfl⟩ := hs
    refine ⟨by simp [State.smartContractAddress, ha], ?_⟩
    refine ⟨⟨a, s.lastScrapedBlockNumber, [.single depositTopic, .multiple (s.erc20Tokens.altKeys.map wordOfAddress)]⟩, ?_,
      shows_display (run_helper_lt h ha), rfl⟩
    simp only [State.nextScrape, ha, expect, Res.ok_bind]
    rfl
  · simp only [Option.map_eq_none_iff] at hs
    refine ⟨by simp [State.smartContractAddress, hs], fun sc hsc => ?_⟩
    simp only [State.nextScrape, hs, expect] at hsc
    cases hsc
  · simp only [Option.map_eq_some_iff] at hs
    obtain ⟨k, hk, rfl⟩ := hs
    refine ⟨k, hk, ?_⟩
    rw [C44_key]
    exact shows_display (Nat.mod_lt _ (by decide))
  · simpa using hs

end

/-- **C62** (native withdrawals): a call that is let in, for a valid address and an amount below `2 ^ 256`, is refused exactly below
the minimum that is shown; otherwise the fee that is shown is taken first, if there is one, and else the burn is made. -/
theorem C62_native [Keccak] {c : Mem} {key : Option Bytes} {observed : Option BlockNumber} {cache : CachedEstimate} {i : MinterInfo}
    (hi : c.m.st.minterInfo key observed cache = .ok i) (now : Nat) {caller : Principal} {amount : Nat} {recipient : List Char}
    {dest : Address} (ha : Admitted c caller) (hd : Destination recipient dest) (hu : amount < 2 ^ 256) :
    (amount < i.minimumWithdrawalAmount →
      Sends c (.native (.error (.amountTooLow i.minimumWithdrawalAmount))) ((Message.withdrawNative caller amount recipient).run c now)) ∧
    (i.minimumWithdrawalAmount ≤ amount → i.withdrawalNativeFee = none →
      Calls (c.locked caller) ⟨i.nativeTwinTokenLedgerId, .burn ⟨caller, none⟩ amount, some (.burn (.convert dest))⟩
        ((Message.withdrawNative caller amount recipient).run c now)) ∧
    (∀ fee, i.minimumWithdrawalAmount ≤ amount → i.withdrawalNativeFee = some fee → c.m.st.nativeLedgerTransferFee ≤ fee →
      Calls (c.locked caller) ⟨i.nativeTwinTokenLedgerId, .transfer ⟨caller, none⟩ ⟨c.id, some feesSubaccount⟩
        (fee - c.m.st.nativeLedgerTransferFee), none⟩ ((Message.withdrawNative caller amount recipient).run c now)) := by
  simp only [State.minterInfo, Res.bind_ok, Res.pure_ok] at hi
  obtain ⟨_, _, _, _, rfl⟩ := hi
  obtain ⟨_, h1, h2⟩ := ((C58_native c now caller amount recipient).2 ha).2 dest hd
  exact ⟨fun hm => h1 hu hm, fun hm => (h2 hu hm).1, fun fee hm hf hle => ((h2 hu hm).2 fee hf).1 hle⟩

/-- **C62** (token withdrawals): a token is accepted exactly if it is listed. -/
theorem C62_token [Keccak] {c : Mem} (hr : Run c.m.log c.m.st) {key : Option Bytes} {observed : Option BlockNumber}
    {cache : CachedEstimate} {i : MinterInfo} (hi : c.m.st.minterInfo key observed cache = .ok i) (now : Nat) {caller : Principal}
    {amount : Nat} {ledger : Principal} {recipient : List Char} {dest : Address} {cached : Option GasFeeEstimate}
    (ha : Admitted c caller) (hd : Destination recipient dest) (hu : amount < 2 ^ 256) :
    Sends c (.erc20 (.error .tokenNotSupported)) ((Message.withdrawErc20 caller amount ledger recipient cached).run c now) ↔
      ∀ x ∈ i.supportedErc20Tokens, x.ledger ≠ ledger := by
  have R := registry_of_run hr
  obtain ⟨r, e1, e2, e3⟩ := DMKM.iter_total R.wf
  have hs : c.m.st.supportedErc20Tokens = .ok (r.map fun x => ⟨c.m.st.evmNetwork, x.2.1, x.2.2, x.1⟩) := by
    simp [State.supportedErc20Tokens, e1, bind, Except.bind, pure, Except.pure]
  have hl : (∀ x ∈ i.supportedErc20Tokens, x.ledger ≠ ledger) ↔ c.m.st.erc20Tokens.getEntry ledger = none := by
    simp only [State.minterInfo, hs, Res.ok_bind, Res.pure_ok] at hi
    subst hi
    simp only [List.mem_map, forall_exists_index, and_imp]
    constructor
    · intro h1
      cases hg : c.m.st.erc20Tokens.getEntry ledger with
      | none => rfl
      | some x =>
        obtain ⟨a, sym⟩ := x
        exact absurd rfl (h1 _ _ _ ((e2 _ _ _).2 ((DMKM.getEntry_eq R.wf).1 hg)) rfl rfl)
    · rintro h1 x t y hy rfl rfl hx
      have := (DMKM.getEntry_eq R.wf).2 ((e2 y.1 y.2.1 y.2.2).1 hy)
      change y.1 = ledger at hx
      rw [hx, h1] at this
      cases this
  rw [hl]
  obtain ⟨_, h1, h2⟩ := ((C58_erc20 c now caller amount ledger recipient cached).2 ha).2 dest hd
  refine ⟨fun hsend => ?_, fun hn => h1 hu hn⟩
  cases hg : c.m.st.erc20Tokens.getEntry ledger with
  | none => rfl
  | some x =>
    obtain ⟨a, sym⟩ := x
    obtain ⟨k1, k2, k3⟩ := h2 hu a sym hg
    unfold Sends at hsend
    cases cached with
    | some g =>
      obtain ⟨q1, q2⟩ := k1 g rfl
      cases hf : (c.locked caller).m.st.withdrawalNativeFee with
      | none =>
        obtain ⟨t, ht, _⟩ := q1 hf
        rw [hsend] at ht; simp at ht
      | some fee =>
        by_cases hle : (c.locked caller).m.st.nativeLedgerTransferFee ≤ fee
        · obtain ⟨t, ht, _⟩ := (q2 fee hf).1 hle
          rw [hsend] at ht; simp at ht
        · obtain ⟨t, ht⟩ := (q2 fee hf).2 (Nat.not_le.1 hle)
          rw [hsend] at ht; cases ht
    | none =>
      by_cases hac : TaskType.refreshGasFeeEstimate ∈ c.active
      · have := k2 rfl hac
        unfold Sends at this
        rw [hsend] at this; cases this
      · have := k3 rfl hac
        rw [hsend] at this; simp at this

/-! ## The quoted price -/

/-- **C62** (quote for a token): if the query quotes a price for a token and the estimate is still recent when `withdraw_erc20` is
called, then the caller is charged exactly the quoted maximum fee, and the same estimate suffices to create the transaction, which
offers exactly the quoted price per gas. -/
theorem C62_quote_token [Keccak] {c : Mem} {cache : CachedEstimate} {ledger : Principal} {p : PriceReply} {now : Nat}
    (hp : transactionPrice c.m.st cache (some ledger) = .ok p) {address : Address} {symbol : String}
    (htok : c.m.st.erc20Tokens.getEntry ledger = some (address, symbol)) {caller : Principal} {amount : Nat} {recipient : List Char}
    {dest : Address} (ha : Admitted c caller) (hd : Destination recipient dest) (hu : amount < 2 ^ 256) {g : GasFeeEstimate}
    (hg : cachedEstimate cache now = some g) :
    Charges (c.locked caller) caller p.maxTransactionFee amount symbol dest
      ((Message.withdrawErc20 caller amount ledger recipient (some g)).run c now) ∧
    ∀ r : Erc20Request, r.maxTransactionFee = p.maxTransactionFee → p.maxTransactionFee < 2 ^ 256 - 1 → ∀ nonce,
      ∃ tx, createTransaction (.erc20 r) nonce g (estimateGasLimit (.erc20 r)) c.m.st.evmNetwork = .ok (.ok tx) ∧
        tx.maxFeePerGas = p.maxFeePerGas ∧ tx.maxPriorityFeePerGas = p.maxPriorityFeePerGas ∧ tx.gasLimit = p.gasLimit ∧
        tx.gasLimit * tx.maxFeePerGas = p.maxTransactionFee := by
  obtain ⟨ts, hc, _⟩ := C38_cache.1 g hg
  have hf : c.m.st.findErc20TokenByLedgerId ledger = some ⟨c.m.st.evmNetwork, address, symbol, ledger⟩ := by
    simp [State.findErc20TokenByLedgerId, htok]
  simp only [transactionPrice, hf, hc, Res.ok_bind, Except.ok.injEq] at hp
  subst hp
  refine ⟨?_, ?_⟩
  · exact ((((C58_erc20 c now caller amount ledger recipient (some g)).2 ha).2 dest hd).2.2 hu address symbol htok).1 g rfl
  · intro r hr hlt nonce
    change (g.toPrice erc20GasLimit).maxTransactionFee < 2 ^ 256 - 1 at hlt
    change r.maxTransactionFee = (g.toPrice erc20GasLimit).maxTransactionFee at hr
    rcases maxTransactionFee_spec (g.toPrice erc20GasLimit) with ⟨h1, h2⟩ | ⟨h1, _⟩
    · have e : (g.toPrice erc20GasLimit).gasLimit * (g.toPrice erc20GasLimit).maxFeePerGas = 65000 * g.maxFeePerGas := rfl
      rw [e] at h1
      have hdiv : intoWeiPerGas r.maxTransactionFee erc20GasLimit = some g.maxFeePerGas := by
        rw [hr, h1]
        unfold intoWeiPerGas cdivFloor erc20GasLimit
        simp
      have hle : ¬ g.minMaxFeePerGas > g.maxFeePerGas := by
        have hU : U256 = u256Max + 1 := u256_eq
        have hm : g.minMaxFeePerGas = min (g.baseFeePerGas + g.maxPriorityFeePerGas) u256Max := by
          unfold GasFeeEstimate.minMaxFeePerGas cadd
          split
          · simp only [Option.getD_some]; womega
          · simp only [Option.getD_none]; womega
        rw [hm, C38_max_fee]
        unfold u256Max
        womega
      refine ⟨⟨c.m.st.evmNetwork.chainId, nonce, g.maxPriorityFeePerGas, g.maxFeePerGas, 65000, r.erc20ContractAddress, 0,
        Erc20Transfer.encode ⟨r.destination, r.withdrawalAmount⟩, []⟩, ?_, ?_⟩
      · simp only [createTransaction, estimateGasLimit, hdiv, expect]
        simp [erc20GasLimit, ensure, hle, bind, Except.bind, pure, Except.pure]
      · exact ⟨rfl, rfl, rfl, h1.symm⟩
    · rw [h1] at hlt
      exact absurd hlt (Nat.lt_irrefl _)

/-- **C62** (quote for the native token): with the estimate of the quote, the transaction of a native withdrawal is created exactly
if the amount covers the quoted maximum fee, and then it carries the amount less that fee, at the quoted price per gas. -/
theorem C62_quote_native {s : State} {cache : CachedEstimate} {token : Option Principal} {p : PriceReply} {ts : Nat} {g : GasFeeEstimate}
    (hp : transactionPrice s cache token = .ok p) (hc : cache = some (ts, g))
    (ht : token = none ∨ token = some s.nativeLedgerId ∧ s.erc20Tokens.getEntry s.nativeLedgerId = none)
    (r : NativeRequest) (nonce : TransactionNonce) :
    (p.maxTransactionFee ≤ r.withdrawalAmount → ∃ tx,
      createTransaction (.native r) nonce g (estimateGasLimit (.native r)) s.evmNetwork = .ok (.ok tx) ∧
        tx.amount + p.maxTransactionFee = r.withdrawalAmount ∧ tx.maxFeePerGas = p.maxFeePerGas ∧
        tx.maxPriorityFeePerGas = p.maxPriorityFeePerGas ∧ tx.gasLimit = p.gasLimit) ∧
    (r.withdrawalAmount < p.maxTransactionFee → ∃ e,
      createTransaction (.native r) nonce g (estimateGasLimit (.native r)) s.evmNetwork = .ok (.error e) ∧
        e.actual = p.maxTransactionFee ∧ e.allowed = r.withdrawalAmount) := by
  have hp' : p = { PriceReply.ofPrice (g.toPrice nativeGasLimit) with timestamp := some ts } := by
    rcases ht with rfl | ⟨rfl, hn⟩
    · simp only [transactionPrice, hc, Res.ok_bind, Except.ok.injEq] at hp
      exact hp.symm
    · have hf : s.findErc20TokenByLedgerId s.nativeLedgerId = none := by simp [State.findErc20TokenByLedgerId, hn]
      simp only [transactionPrice, hf, if_true, hc, Res.ok_bind, Except.ok.injEq] at hp
      exact hp.symm
  subst hp'
  refine ⟨fun hle => ?_, fun hlt => ?_⟩
  · change (g.toPrice nativeGasLimit).maxTransactionFee ≤ r.withdrawalAmount at hle
    have hs : csub r.withdrawalAmount (g.toPrice nativeGasLimit).maxTransactionFee =
        some (r.withdrawalAmount - (g.toPrice nativeGasLimit).maxTransactionFee) := by unfold csub; rw [if_pos hle]
    refine ⟨⟨s.evmNetwork.chainId, nonce, g.maxPriorityFeePerGas, g.maxFeePerGas, 21000, r.destination,
      r.withdrawalAmount - (g.toPrice nativeGasLimit).maxTransactionFee, [], []⟩, ?_, ?_⟩
    · simp only [createTransaction, estimateGasLimit, ensure, hs]
      rfl
    · exact ⟨Nat.sub_add_cancel hle, rfl, rfl, rfl⟩
  · change r.withdrawalAmount < (g.toPrice nativeGasLimit).maxTransactionFee at hlt
    have hs : csub r.withdrawalAmount (g.toPrice nativeGasLimit).maxTransactionFee = none := by
      unfold csub; rw [if_neg (Nat.not_le.2 hlt)]
    refine ⟨⟨r.ledgerBurnIndex, r.withdrawalAmount, (g.toPrice nativeGasLimit).maxTransactionFee⟩, ?_, ?_⟩
    · simp only [createTransaction, estimateGasLimit, ensure, hs]
      rfl
    · exact ⟨rfl, rfl⟩

/-- **C62** (deposits): a native deposit is credited less the fee that is shown when the ledger makes the mint, on the ledger that
is shown. -/
theorem C62_deposit [Keccak] {w w' : World} (h : Reachable w) (hs : Step w w') {key : Option Bytes} {observed : Option BlockNumber}
    {cache : CachedEstimate} {i : MinterInfo} (hi : w.mem.m.st.minterInfo key observed cache = .ok i) {b : Block} {e : NativeDeposit}
    (hb : w'.blocks = w.blocks ++ [b]) (hc : b.call.credits (Deposit.native e).source = true)
    (he : w.mem.m.st.eventsToMint.get (Deposit.native e).source = some (.native e)) :
    ∃ amount, b.call.op = .mint ⟨e.principal, e.subaccount⟩ amount ∧ b.call.ledger = i.nativeTwinTokenLedgerId ∧
      amount + i.depositNativeFee.getD 0 = e.value := by
  simp only [State.minterInfo, Res.bind_ok, Res.pure_ok] at hi
  obtain ⟨_, _, _, _, rfl⟩ := hi
  obtain ⟨d, amount, h1, h2, h3, _, h5⟩ := C03_mint h hs hb hc
  rw [he] at h1
  cases h1
  exact ⟨amount, h2, h3, h5⟩

/-- **C62** (estimate): every quote of `eip_1559_transaction_price` is made of the price per gas and the time that are shown, and there
is one for the native token; while the shown time is less than 30 seconds past, withdrawals use this price. If no estimate is shown,
then there are no quotes. -/
theorem C62_estimate [Keccak] {s : State} {key : Option Bytes} {observed : Option BlockNumber} {cache : CachedEstimate} {i : MinterInfo}
    (hi : s.minterInfo key observed cache = .ok i) :
    (∀ x, i.lastGasFeeEstimate = some x →
      (∀ token p, transactionPrice s cache token = .ok p → p.maxFeePerGas = x.maxFeePerGas ∧
        p.maxPriorityFeePerGas = x.maxPriorityFeePerGas ∧ p.timestamp = some x.timestamp) ∧
      (∃ p, transactionPrice s cache none = .ok p) ∧
      ∀ now, now < x.timestamp + 30000000000 → now < 2 ^ 64 - 1 → ∃ g, cachedEstimate cache now = some g ∧
        g.maxFeePerGas = x.maxFeePerGas ∧ g.maxPriorityFeePerGas = x.maxPriorityFeePerGas) ∧
    (i.lastGasFeeEstimate = none → ∀ token p, transactionPrice s cache token ≠ .ok p) := by
  simp only [State.minterInfo, Res.bind_ok, Res.pure_ok] at hi
  obtain ⟨_, _, _, _, rfl⟩ := hi
  have hq : ∀ token p, transactionPrice s cache token = .ok p → ∃ ts g l, cache = some (ts, g) ∧
      p = { PriceReply.ofPrice (g.toPrice l) with timestamp := some ts } := by
    intro token p hp
    cases cache with
    | none =>
      simp only [transactionPrice, bind, Except.bind] at hp
      (repeat' split at hp) <;> cases hp
    | some y =>
      simp only [transactionPrice, bind, Except.bind] at hp
      (repeat' split at hp) <;> cases hp <;> exact ⟨y.1, y.2, _, rfl, rfl⟩
  refine ⟨fun x hx => ?_, fun hx token p hp => ?_⟩
  · simp only [Option.map_eq_some_iff] at hx
    obtain ⟨⟨ts, g⟩, rfl, rfl⟩ := hx
    refine ⟨fun token p hp => ?_, ⟨_, rfl⟩, fun now h1 h2 => ⟨g, ?_, rfl, rfl⟩⟩
    · obtain ⟨ts', g', l, hc, rfl⟩ := hq token p hp
      cases hc
      exact ⟨rfl, rfl, rfl⟩
    · have : now < min (ts + 30000000000) u64Max := by
        have : u64Max = 2 ^ 64 - 1 := by decide
        simp only at h1
        omega
      simp [cachedEstimate, this]
  · obtain ⟨_, _, _, hc, _⟩ := hq token p hp
    subst hc
    cases hx

/-- **C62** (configuration): only the ledger suite manager that is shown can register tokens, and it is the one that is told about the
native ledgers; only the swap canister that is shown can ask for a check of deposits; the newest block is asked for with the tag that is
shown. The last observed block is shown as it is. -/
theorem C62_configuration [Keccak] {s : State} {key : Option Bytes} {observed : Option BlockNumber} {cache : CachedEstimate}
    {i : MinterInfo} (hi : s.minterInfo key observed cache = .ok i) :
    (∀ caller a x, addErc20Token s caller a = .ok x → i.ledgerSuiteManagerId = some caller) ∧
    (∀ w x, lazyAddNativeLs w s = .ok x → i.ledgerSuiteManagerId = some x.1) ∧
    (∀ (c : Mem) caller now x, c.m.st = s → c.checkNewDeposits caller now = .ok x → i.swapCanisterId = some caller) ∧
    (∀ keys self sc, ∃ r, (ExtTask.scrape (.observing sc)).requests s keys self = [r] ∧
      r.method = .getBlockByNumber (intoEvmBlockTag (.tag i.blockHeight))) ∧
    i.lastObservedBlockNumber = observed := by
  simp only [State.minterInfo, Res.bind_ok, Res.pure_ok] at hi
  obtain ⟨_, _, _, _, rfl⟩ := hi
  refine ⟨fun caller a x hx => ?_, fun w x hx => ?_, fun c caller now x hc hx => ?_, fun keys self sc => ⟨_, rfl, rfl⟩, rfl⟩
  · cases hm : s.ledgerSuiteManagerId with
    | none => simp [addErc20Token, hm, expect, bind, Except.bind] at hx
    | some m =>
      by_cases he : m = caller
      · subst he; rfl
      · simp [addErc20Token, hm, expect, ensure, he, bind, Except.bind] at hx
  · cases hm : s.ledgerSuiteManagerId with
    | none => simp [lazyAddNativeLs, hm] at hx
    | some m =>
      simp only [lazyAddNativeLs, hm, Except.ok.injEq] at hx
      subst hx
      rfl
  · subst hc
    cases hm : c.m.st.swapCanisterId with
    | none => simp [Mem.checkNewDeposits, hm] at hx
    | some m =>
      by_cases he : m = caller
      · subst he; rfl
      · simp [Mem.checkNewDeposits, hm, he] at hx

namespace Example
attribute [local instance] keccak

/-- What is told after the example log: it registers one token. -/
theorem C62_example : ∃ s, Run log s ∧ (match s.minterInfo none (some 170) (some (7, ⟨495, 10⟩)) with
    | .ok i => decide (i.supportedErc20Tokens.map (fun x => (x.symbol, x.ledger)) = [("ckUSDC", usdcLedger)] ∧
        i.erc20Balances.map (·.balance) = [tokenBalance s usdc] ∧ 0 < tokenBalance s usdc ∧
        i.helperContractAddress.isSome ∧ i.minterAddress = none ∧ i.minimumWithdrawalAmount = 2000000000 ∧
        i.depositNativeFee = some 50 ∧ i.withdrawalNativeFee = some 100 ∧ i.nativeBalance = s.nativeBalance.balance ∧
        i.lastGasFeeEstimate = some ⟨1000, 10, 7⟩)
    | .error _ => false) = true := by
  obtain ⟨s, h, h1⟩ := log_run
  refine ⟨s, h, ?_⟩
  obtain ⟨s', h2, h3⟩ := of_checkLog (l := log) (p := fun s => match s.minterInfo none (some 170) (some (7, ⟨495, 10⟩)) with
    | .ok i => decide (i.supportedErc20Tokens.map (fun x => (x.symbol, x.ledger)) = [("ckUSDC", usdcLedger)] ∧
        i.erc20Balances.map (·.balance) = [tokenBalance s usdc] ∧ 0 < tokenBalance s usdc ∧
        i.helperContractAddress.isSome ∧ i.minterAddress = none ∧ i.minimumWithdrawalAmount = 2000000000 ∧
        i.depositNativeFee = some 50 ∧ i.withdrawalNativeFee = some 100 ∧ i.nativeBalance = s.nativeBalance.balance ∧
        i.lastGasFeeEstimate = some ⟨1000, 10, 7⟩)
    | .error _ => false) (by decide +kernel)
  rw [h1] at h2
  cases h2
  exact h3

/-- The quotes for the same estimate. -/
theorem C62_example_quote : ∃ s, replay log = .ok s ∧ (match transactionPrice s (some (7, ⟨495, 10⟩)) (some usdcLedger),
      transactionPrice s (some (7, ⟨495, 10⟩)) (some s.nativeLedgerId), transactionPrice s (some (7, ⟨495, 10⟩)) (some alice) with
    | .ok p, .ok q, .error _ => decide (p.maxTransactionFee = 65000000 ∧ q.maxTransactionFee = 21000000 ∧
        s.erc20Tokens.getEntry s.nativeLedgerId = none)
    | _, _, _ => false) = true := of_checkLog (by decide +kernel)

end Example
end EvmMinter
