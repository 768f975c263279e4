import Verif.Model.Transactions
/-!
# Minter state and event application (minter/src/state.rs, minter/src/state/audit.rs, minter/src/lifecycle.rs)

Not part of `State` here (kept in the models of the asynchronous tasks that use them): the caches
`ecdsa_public_key`, `last_transaction_price_estimate`, the transient locks `active_tasks`,
`pending_withdrawal_principals`, and `last_observed_block_number`/`last_observed_block_time`.
-/

namespace EvmMinter

/-- `NativeBalance` (state.rs:610-623). -/
structure NativeBalance where
  balance : Wei
  totalEffectiveTxFees : Wei
  totalUnspentTxFees : Wei
deriving DecidableEq, Repr

/-- `State` (state.rs:100-166). -/
structure State where
  evmNetwork : EvmNetwork
  ecdsaKeyName : List Char
  nativeLedgerId : Principal
  nativeIndexId : Principal
  nativeSymbol : String
  helperContractAddress : Option Address
  evmCanisterId : Principal
  nativeLedgerTransferFee : Wei
  nativeMinimumWithdrawalAmount : Wei
  blockHeight : BlockTag
  firstScrapedBlockNumber : BlockNumber
  lastScrapedBlockNumber : BlockNumber
  eventsToMint : FMap EventSource Deposit
  mintedEvents : FMap EventSource MintedEvent
  invalidEvents : FMap EventSource InvalidReason
  txs : Transactions
  skippedBlocks : FSet BlockNumber
  nativeBalance : NativeBalance
  erc20Balances : FMap Address Erc20Value
  depositNativeFee : Option Wei
  withdrawalNativeFee : Option Wei
  ledgerSuiteManagerId : Option Principal
  erc20Tokens : DMKM Principal Address String
  minMaxPriorityFeePerGas : WeiPerGas
  swapCanisterId : Option Principal
deriving DecidableEq

/-- Unicode `White_Space`, as used by `str::trim`. -/
def isRustWhitespace (c : Char) : Bool :=
  let n := c.toNat
  (9 ≤ n && n ≤ 13) || n == 32 || n == 0x85 || n == 0xa0 || n == 0x1680 || (0x2000 ≤ n && n ≤ 0x200a)
    || n == 0x2028 || n == 0x2029 || n == 0x202f || n == 0x205f || n == 0x3000

/-- Value of a hexadecimal digit (crate `hex`). -/
def hexDigit (c : Char) : Option Nat :=
  let n := c.toNat
  if 48 ≤ n ∧ n ≤ 57 then some (n - 48)
  else if 97 ≤ n ∧ n ≤ 102 then some (n - 87)
  else if 65 ≤ n ∧ n ≤ 70 then some (n - 55)
  else none

/-- Value of a string of hexadecimal digits, most significant first. -/
def hexValue (acc : Nat) : List Char → Option Nat
  | [] => some acc
  | c :: t => (hexDigit c).bind fun d => hexValue (acc * 16 + d) t

/-- `Address::from_str` (eth_types/mod.rs:84-96): `0x` and exactly 40 hexadecimal digits. -/
def Address.parse (s : List Char) : Option Address :=
  match s with
  | '0' :: 'x' :: rest => if rest.length = 40 then hexValue 0 rest else none
  | _ => none

/-- `CheckedAmountOf::try_from(Nat)` (checked_amount/mod.rs:183-196). -/
def u256OfNat (n : Nat) : Option Nat := if n < U256 then some n else none

/-- `InvalidStateError` (state.rs:73-83), without the messages. -/
inductive InvalidStateError where
  | transactionNonce | ecdsaKeyName | ledgerId | helperContractAddress | minimumWithdrawalAmount
  | minimumLedgerTransferFee | lastScrapedBlockNumber | minimumMaximumPriorityFeePerGas | feeInput
deriving DecidableEq, Repr

/-- `Option::ok_or`. -/
def orErr {α ε : Type} (o : Option α) (e : ε) : Except ε α :=
  match o with
  | some a => .ok a
  | none => .error e

namespace State

/-- `validate_config` (state.rs:177-211). -/
def validateConfig (s : State) : Except InvalidStateError Unit :=
  if s.ecdsaKeyName.all isRustWhitespace then .error .ecdsaKeyName
  else if s.nativeLedgerId = Principal.anonymous then .error .ledgerId
  else if s.helperContractAddress = some Address.zero then .error .helperContractAddress
  else if s.nativeMinimumWithdrawalAmount = 0 then .error .minimumWithdrawalAmount
  else if s.nativeMinimumWithdrawalAmount < s.nativeLedgerTransferFee then
    .error .minimumWithdrawalAmount
  else .ok ()

/-- Fees set to zero are remapped to `None` (lifecycle.rs:114-130, state.rs:562-584). -/
def feeOption (w : Wei) : Option Wei := if w = 0 then none else some w

/-- The default EVM RPC canister `sosge-5iaaa-aaaag-alcla-cai` (lifecycle.rs:159). -/
def defaultEvmCanisterId : Principal := ⟨[0, 0, 0, 0, 0, 0xc0, 0x58, 0x96, 1, 1]⟩

/-- Optional helper contract address (lifecycle.rs:87-92). -/
def parseHelper : Option (List Char) → Except InvalidStateError (Option Address)
  | none => .ok none
  | some h => (orErr (Address.parse h) InvalidStateError.helperContractAddress).map some

/-- `TryFrom<InitArg> for State` (lifecycle.rs:53-168). -/
def ofInit (a : InitArg) : Except InvalidStateError State := do
  let initialNonce ← orErr (u256OfNat a.nextTransactionNonce) .transactionNonce
  let minW ← orErr (u256OfNat a.nativeMinimumWithdrawalAmount) .minimumWithdrawalAmount
  let fee ← orErr (u256OfNat a.nativeLedgerTransferFee) .minimumLedgerTransferFee
  let helper ← parseHelper a.helperContractAddress
  let lastScraped ← orErr (u256OfNat a.lastScrapedBlockNumber) .lastScrapedBlockNumber
  let minPrio ← orErr (u256OfNat a.minMaxPriorityFeePerGas) .minimumMaximumPriorityFeePerGas
  let firstScraped ← orErr (cinc lastScraped) .lastScrapedBlockNumber
  let depFee ← orErr (u256OfNat a.depositNativeFee) .feeInput
  let wFee ← orErr (u256OfNat a.withdrawalNativeFee) .feeInput
  let s : State := {
    evmNetwork := a.evmNetwork
    ecdsaKeyName := a.ecdsaKeyName
    nativeLedgerId := a.nativeLedgerId
    nativeIndexId := a.nativeIndexId
    nativeSymbol := a.nativeSymbol
    helperContractAddress := helper
    evmCanisterId := defaultEvmCanisterId
    nativeLedgerTransferFee := fee
    nativeMinimumWithdrawalAmount := minW
    blockHeight := a.blockHeight
    firstScrapedBlockNumber := firstScraped
    lastScrapedBlockNumber := lastScraped
    eventsToMint := ∅
    mintedEvents := ∅
    invalidEvents := ∅
    txs := Transactions.new initialNonce
    skippedBlocks := ∅
    nativeBalance := ⟨0, 0, 0⟩
    erc20Balances := ∅
    depositNativeFee := feeOption depFee
    withdrawalNativeFee := feeOption wFee
    ledgerSuiteManagerId := some a.ledgerSuiteManagerId
    erc20Tokens := ∅
    minMaxPriorityFeePerGas := minPrio
    swapCanisterId := none }
  s.validateConfig
  return s

/-- Apply `f` to the argument if present, otherwise keep the state. -/
def updOpt {α : Type} (o : Option α) (f : State → α → Except InvalidStateError State) (s : State) :
    Except InvalidStateError State :=
  match o with
  | none => .ok s
  | some a => f s a

/-- `upgrade` (state.rs:492-588). -/
def upgrade (s : State) (a : UpgradeArg) : Except InvalidStateError State := do
  let s ← updOpt a.nextTransactionNonce (fun s n => do
    let n ← orErr (u256OfNat n) .transactionNonce
    return { s with txs := s.txs.updateNextNonce n }) s
  let s ← updOpt a.nativeMinimumWithdrawalAmount (fun s n => do
    let n ← orErr (u256OfNat n) .minimumWithdrawalAmount
    return { s with nativeMinimumWithdrawalAmount := n }) s
  let s ← updOpt a.nativeLedgerTransferFee (fun s n => do
    let n ← orErr (u256OfNat n) .minimumLedgerTransferFee
    return { s with nativeLedgerTransferFee := n }) s
  let s ← updOpt a.minMaxPriorityFeePerGas (fun s n => do
    let n ← orErr (u256OfNat n) .minimumMaximumPriorityFeePerGas
    return { s with minMaxPriorityFeePerGas := n }) s
  let s ← updOpt a.helperContractAddress (fun s h => do
    let h ← orErr (Address.parse h) .helperContractAddress
    return { s with helperContractAddress := some h }) s
  let s ← updOpt a.lastScrapedBlockNumber (fun s n => do
    let n ← orErr (u256OfNat n) .lastScrapedBlockNumber
    return { s with lastScrapedBlockNumber := n }) s
  let s ← updOpt a.blockHeight (fun s h => .ok { s with blockHeight := h }) s
  let s ← updOpt a.evmRpcId (fun s p => .ok { s with evmCanisterId := p }) s
  let s ← updOpt a.depositNativeFee (fun s n => do
    let n ← orErr (u256OfNat n) .feeInput
    return { s with depositNativeFee := feeOption n }) s
  let s ← updOpt a.withdrawalNativeFee (fun s n => do
    let n ← orErr (u256OfNat n) .feeInput
    return { s with withdrawalNativeFee := feeOption n }) s
  s.validateConfig
  return s

/-- `record_quarantined_deposit` (state.rs:239-248). -/
def recordQuarantinedDeposit (s : State) (src : EventSource) : State :=
  let s := { s with eventsToMint := s.eventsToMint.erase src }
  if s.invalidEvents.contains src then s
  else { s with invalidEvents := s.invalidEvents.insert src .quarantinedDeposit }

/-- `Erc20Balances::erc20_add` (state.rs:704-721). -/
def erc20Add (b : FMap Address Erc20Value) (c : Address) (v : Erc20Value) :
    Res (FMap Address Erc20Value) :=
  match b.get c with
  | some prev => do
    let n ← expect (cadd prev v) "BUG: overflow when adding"
    return b.insert c n
  | none => .ok (b.insert c v)

/-- `Erc20Balances::erc20_sub` (state.rs:723-738). -/
def erc20Sub (b : FMap Address Erc20Value) (c : Address) (v : Erc20Value) :
    Res (FMap Address Erc20Value) := do
  let prev ← expect (b.get c) "BUG: Cannot subtract from a missing ERC-20 balance"
  let n ← expect (csub prev v) "BUG: underflow when subtracting"
  return b.insert c n

/-- `update_balance_upon_deposit` (state.rs:349-356) with `eth_balance_add` (state.rs:636-643). -/
def updateBalanceUponDeposit (s : State) (d : Deposit) : Res State :=
  match d with
  | .native e => do
    let b ← expect (cadd s.nativeBalance.balance e.value) "BUG: overflow when adding"
    return { s with nativeBalance := { s.nativeBalance with balance := b } }
  | .erc20 e => do
    let b ← erc20Add s.erc20Balances e.erc20ContractAddress e.value
    return { s with erc20Balances := b }

/-- Whether the deposited token is supported (state.rs:258-264). -/
def depositSupported (s : State) : Deposit → Bool
  | .native _ => true
  | .erc20 e => s.erc20Tokens.containsAlt e.erc20ContractAddress

/-- `record_event_to_mint` (state.rs:250-269). -/
def recordEventToMint (s : State) (d : Deposit) : Res State := do
  ensure (!s.eventsToMint.contains d.source) "there must be no two different events with the same source"
  ensure (!s.mintedEvents.contains d.source) "minted_events.contains_key"
  ensure (!s.invalidEvents.contains d.source) "invalid_events.contains_key"
  ensure (s.depositSupported d) "BUG: unsupported ERC-20 contract address in event"
  ({ s with eventsToMint := s.eventsToMint.insert d.source d }).updateBalanceUponDeposit d

/-- `record_skipped_block` (state.rs:271-277). -/
def recordSkippedBlock (s : State) (b : BlockNumber) : Res State := do
  ensure (!s.skippedBlocks.contains b) "BUG: block was already skipped"
  return { s with skippedBlocks := s.skippedBlocks.insert b () }

/-- `record_invalid_deposit` (state.rs:279-296). -/
def recordInvalidDeposit (s : State) (src : EventSource) (reason : String) : Res State := do
  ensure (!s.eventsToMint.contains src) "attempted to mark an accepted event as invalid"
  ensure (!s.mintedEvents.contains src) "attempted to mark a minted event as invalid"
  if s.invalidEvents.contains src then return s
  else return { s with invalidEvents := s.invalidEvents.insert src (.invalidDeposit reason) }

/-- `record_successful_mint` (state.rs:298-326). -/
def recordSuccessfulMint (s : State) (src : EventSource) (symbol : String) (block : LedgerMintIndex)
    (contract : Option Address) : Res State := do
  ensure (!s.invalidEvents.contains src) "attempted to mint an event previously marked as invalid"
  let d ← expect (s.eventsToMint.get src) "attempted to mint Twin tokens for an unknown event"
  ensure (!s.mintedEvents.contains src) "attempted to mint native twice for the same event"
  return { s with
    eventsToMint := s.eventsToMint.erase src
    mintedEvents := s.mintedEvents.insert src ⟨d, block, symbol, contract⟩ }

/-- `record_erc20_withdrawal_request` (state.rs:328-337). -/
def recordErc20WithdrawalRequest (s : State) (r : Erc20Request) : Res State := do
  ensure (s.erc20Tokens.containsAlt r.erc20ContractAddress) "BUG: unsupported ERC-20 token"
  let t ← s.txs.recordWithdrawalRequest (.erc20 r)
  return { s with txs := t }

/-- `charged_tx_fee` (state.rs:372-378). -/
def chargedFee (r : Request) (tx : Tx) : Res Wei :=
  match r with
  | .native q => expect (csub q.withdrawalAmount tx.amount)
      "BUG: withdrawal amount MUST always be at least the transaction amount"
  | .erc20 q => .ok q.maxTransactionFee

/-- `debited_amount` (state.rs:382-389). -/
def debitedAmount (status : TxStatus) (tx : Tx) (txFee : Wei) : Res Wei :=
  match status with
  | .success => expect (cadd tx.amount txFee) "BUG: debited amount always fits into U256"
  | .failure => .ok txFee

/-- The ERC-20 part of `update_balance_upon_withdrawal` (state.rs:395-401). -/
def erc20Debit (s : State) (status : TxStatus) (tx : Tx) : Res State :=
  if status = .success ∧ tx.data ≠ [] then do
    match ← Erc20Transfer.decode tx.data with
    | .error _ => .error "BUG: failed to decode transaction data from transaction issued by minter"
    | .ok c =>
      let b ← erc20Sub s.erc20Balances tx.destination c.value
      return { s with erc20Balances := b }
  else return s

/-- `update_balance_upon_withdrawal` (state.rs:358-402). -/
def updateBalanceUponWithdrawal (s : State) (i : LedgerBurnIndex) (receipt : Receipt) : Res State := do
  let txFee ← receipt.effectiveFee
  let fin ← expect (s.txs.finalized.getAlt i) "BUG: missing finalized transaction"
  let r ← expect (s.txs.processed.get i) "BUG: missing withdrawal request"
  let charged ← chargedFee r fin.signed.tx
  let unspent ← expect (csub charged txFee)
    "BUG: charged transaction fee MUST always be at least the effective transaction fee"
  let debited ← debitedAmount receipt.status fin.signed.tx txFee
  let balance ← expect (csub s.nativeBalance.balance debited) "BUG: underflow when subtracting"
  let eff ← expect (cadd s.nativeBalance.totalEffectiveTxFees txFee) "BUG: overflow when adding"
  let uns ← expect (cadd s.nativeBalance.totalUnspentTxFees unspent) "BUG: overflow when adding"
  ({ s with nativeBalance := ⟨balance, eff, uns⟩ }).erc20Debit receipt.status fin.signed.tx

/-- `record_finalized_transaction` (state.rs:339-347). -/
def recordFinalizedTransaction [Keccak] (s : State) (i : LedgerBurnIndex) (receipt : Receipt) :
    Res State := do
  let t ← s.txs.recordFinalizedTransaction i receipt
  ({ s with txs := t }).updateBalanceUponWithdrawal i receipt

/-- `supported_erc20_tokens` (state.rs:415-424). -/
def supportedErc20Tokens (s : State) : Res (List Erc20Token) := do
  let l ← s.erc20Tokens.iter
  return l.map fun x => ⟨s.evmNetwork, x.2.1, x.2.2, x.1⟩

/-- `find_erc20_token_by_ledger_id` (state.rs:404-413). -/
def findErc20TokenByLedgerId (s : State) (ledger : Principal) : Option Erc20Token :=
  (s.erc20Tokens.getEntry ledger).map fun x => ⟨s.evmNetwork, x.1, x.2, ledger⟩

/-- `record_add_erc20_token` (state.rs:426-452). -/
def recordAddErc20Token (s : State) (t : Erc20Token) : Res State := do
  ensure (s.evmNetwork == t.chainId) "ERROR: Expected network"
  let toks ← s.supportedErc20Tokens
  ensure ((toks.filter (fun x => x.symbol == t.symbol)).isEmpty) "ERROR: ERC20 token symbol is already used"
  match s.erc20Tokens.tryInsert t.erc20LedgerId t.erc20ContractAddress t.symbol with
  | .error _ => .error "ERROR: some ERC20 tokens use the same ERC20 ledger ID or ERC-20 address"
  | .ok m => return { s with erc20Tokens := m }

end State

/-- Lift an `Except`-returning update of the transactions. -/
def liftTxs (s : State) (r : Res Transactions) : Res State := do
  let t ← r
  return { s with txs := t }

/-- `apply_state_transition` (state/audit.rs:11-152). -/
def applyEvent [Keccak] (s : State) (e : Event) : Res State :=
  match e with
  | .init _ => .error "state re-initialization is not allowed"
  | .upgrade a =>
    match s.upgrade a with
    | .ok s' => .ok s'
    | .error _ => .error "applying upgrade event should succeed"
  | .acceptedDeposit d => s.recordEventToMint (.native d)
  | .acceptedErc20Deposit d => s.recordEventToMint (.erc20 d)
  | .invalidDeposit src reason => s.recordInvalidDeposit src reason
  | .mintedNative src b => s.recordSuccessfulMint src s.nativeSymbol b none
  | .mintedErc20 src b sym c => s.recordSuccessfulMint src sym b (some c)
  | .syncedToBlock b => .ok { s with lastScrapedBlockNumber := b }
  | .acceptedNativeWithdrawalRequest r => liftTxs s (s.txs.recordWithdrawalRequest (.native r))
  | .createdTransaction i tx => liftTxs s (s.txs.recordCreatedTransaction i tx)
  | .signedTransaction _ tx => liftTxs s (s.txs.recordSignedTransaction tx)
  | .replacedTransaction _ tx => liftTxs s (s.txs.recordResubmitTransaction tx)
  | .finalizedTransaction i r => s.recordFinalizedTransaction i r
  | .reimbursedNativeWithdrawal r =>
    liftTxs s (s.txs.recordFinalizedReimbursement (.native r.burnInBlock) r.reimbursedInBlock)
  | .skippedBlock b => s.recordSkippedBlock b
  | .addedErc20Token t => s.recordAddErc20Token t
  | .acceptedErc20WithdrawalRequest r => s.recordErc20WithdrawalRequest r
  | .reimbursedErc20Withdrawal n l r =>
    liftTxs s (s.txs.recordFinalizedReimbursement (.erc20 n l r.burnInBlock) r.reimbursedInBlock)
  | .failedErc20WithdrawalRequest r =>
    liftTxs s (s.txs.recordReimbursementRequest (.native r.ledgerBurnIndex) r)
  | .quarantinedDeposit src => .ok (s.recordQuarantinedDeposit src)
  | .quarantinedReimbursement i => .ok { s with txs := s.txs.recordQuarantinedReimbursement i }

/-- Apply a list of events in order (the loop of state/audit.rs:184-186). -/
def applyEvents [Keccak] (s : State) : List Event → Res State
  | [] => .ok s
  | e :: t => do
    let s' ← applyEvent s e
    applyEvents s' t

/-- `replay_events_internal` (state/audit.rs:172-188). -/
def replay [Keccak] (log : List Event) : Res State :=
  match log with
  | .init a :: t =>
    match State.ofInit a with
    | .ok s => applyEvents s t
    | .error _ => .error "state initialization should succeed"
  | [] => .error "the event log should not be empty"
  | _ :: _ => .error "the first event must be an Init event"

end EvmMinter
