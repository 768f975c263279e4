import Verif.Model.State
/-!
# Registering ERC-20 tokens (minter/src/erc20.rs, minter/src/main.rs)
-/

namespace EvmMinter

/-- `AddErc20Token` (endpoints.rs:305-310). -/
structure AddErc20TokenArg where
  chainId : Nat
  address : List Char
  symbol : String
  ledgerId : Principal
deriving DecidableEq, Repr

/-- `ERC20TokenSymbol::from_str` (erc20.rs:42-57). -/
def parseSymbol (s : String) : Option String :=
  if s.utf8ByteSize > 20 then none
  else if s.toList.all (fun c => decide (c.toNat < 128)) then some s
  else none

/-- `ERC20Token::try_from` (erc20.rs:59-80). -/
def Erc20Token.ofArg (a : AddErc20TokenArg) : Option Erc20Token := do
  let n ← if a.chainId < 2 ^ 64 then some a.chainId else none
  let network ← EvmNetwork.ofChainId n
  let address ← Address.parse a.address
  let symbol ← parseSymbol a.symbol
  return ⟨network, address, symbol, a.ledgerId⟩

/-- `add_erc20_token` (main.rs:687-699): the event it records and the new state, or a trap. -/
def addErc20Token [Keccak] (s : State) (caller : Principal) (a : AddErc20TokenArg) : Res (Event × State) := do
  let manager ← expect s.ledgerSuiteManagerId "ERROR: ERC-20 feature is not activated"
  ensure (manager == caller) "ERROR: only the orchestrator can add ERC-20 tokens"
  let t ← expect (Erc20Token.ofArg a) "ERROR: invalid token"
  let s' ← applyEvent s (.addedErc20Token t)
  return (.addedErc20Token t, s')

/-- A message without await points: on a trap the canister's memory is unchanged. -/
def atomically (log : List Event) (s : State) (r : Res (Event × State)) : List Event × State :=
  match r with
  | .ok (e, s') => (log ++ [e], s')
  | .error _ => (log, s)

end EvmMinter
