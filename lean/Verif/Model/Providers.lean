import Verif.Model.Types

/-!
# The JSON-RPC providers

`minter/src/rpc_client/providers.rs`: which services the EVM RPC canister is told to ask, for every network. The API keys are
kept in a stable map (`storage.rs:69-81`), here a function from providers to keys. Strings are lists of characters. Every
`RpcApi` of the file has `headers: None`, so a service is its URL alone.
-/

namespace EvmMinter

/-- `Provider` (providers.rs:8-16). -/
inductive RpcProvider where
  | ankr | llamaNodes | publicNode
deriving DecidableEq, Repr

/-- `RPC_API_KEYS` (storage.rs:69-81): the key stored for a provider, if any. -/
abbrev ApiKeys := RpcProvider → Option (List Char)

/-- `set_rpc_api_key` (storage.rs:76-78). -/
def ApiKeys.set (keys : ApiKeys) (p : RpcProvider) (key : List Char) : ApiKeys :=
  fun q => if q = p then some key else keys q

/-- The keys stored by `init` (main.rs:108-111). -/
def ApiKeys.atInit (ankr llama : List Char) : ApiKeys :=
  ApiKeys.set (ApiKeys.set (fun _ => none) .ankr ankr) .llamaNodes llama

/-- `Provider::get_url_with_api_key` (providers.rs:17-24). -/
def RpcProvider.url (p : RpcProvider) (keys : ApiKeys) (url : String) : List Char :=
  match keys p with
  | some key => url.toList ++ '/' :: key
  | none => url.toList

/-- `RpcServices::Custom` of the EVM RPC canister's types, as built in providers.rs. -/
structure RpcServices where
  chainId : Nat
  services : List (List Char)
deriving DecidableEq

/-- `get_one_provider_ankr` (providers.rs:26-100). -/
def getOneProviderAnkr (keys : ApiKeys) (network : EvmNetwork) : RpcServices :=
  let chainId := network.chainId
  match network with
  | .ethereum => ⟨chainId, [RpcProvider.ankr.url keys "https://rpc.ankr.com/eth"]⟩
  | .sepolia => ⟨chainId, [RpcProvider.ankr.url keys "https://rpc.ankr.com/eth_sepolia"]⟩
  | .arbitrumOne => ⟨chainId, [RpcProvider.ankr.url keys "https://rpc.ankr.com/arbitrum"]⟩
  | .bsc => ⟨chainId, [RpcProvider.ankr.url keys "https://rpc.ankr.com/bsc"]⟩
  | .bscTestnet => ⟨chainId, [RpcProvider.ankr.url keys "https://rpc.ankr.com/bsc_testnet_chapel"]⟩
  | .polygon => ⟨chainId, [RpcProvider.ankr.url keys "https://rpc.ankr.com/polygon"]⟩
  | .optimism => ⟨chainId, [RpcProvider.ankr.url keys "https://rpc.ankr.com/optimism"]⟩
  | .base => ⟨chainId, [RpcProvider.ankr.url keys "https://rpc.ankr.com/base"]⟩
  | .avalanche => ⟨chainId, [RpcProvider.ankr.url keys "https://rpc.ankr.com/avalanche"]⟩
  | .fantom => ⟨chainId, [RpcProvider.ankr.url keys "https://rpc.ankr.com/fantom"]⟩

/-- `get_one_provider_public_node` (providers.rs:102-183). -/
def getOneProviderPublicNode (keys : ApiKeys) (network : EvmNetwork) : RpcServices :=
  let chainId := network.chainId
  match network with
  | .ethereum => ⟨chainId, [RpcProvider.publicNode.url keys "https://ethereum-rpc.publicnode.com"]⟩
  | .sepolia => ⟨chainId, [RpcProvider.publicNode.url keys "https://ethereum-sepolia-rpc.publicnode.com"]⟩
  | .arbitrumOne => ⟨chainId, [RpcProvider.publicNode.url keys "https://arbitrum-one-rpc.publicnode.com"]⟩
  | .bsc => ⟨chainId, [RpcProvider.publicNode.url keys "https://bsc-rpc.publicnode.com"]⟩
  | .bscTestnet => ⟨chainId, [RpcProvider.publicNode.url keys "https://bsc-testnet-rpc.publicnode.com"]⟩
  | .polygon => ⟨chainId, [RpcProvider.publicNode.url keys "https://polygon-bor-rpc.publicnode.com"]⟩
  | .optimism => ⟨chainId, [RpcProvider.publicNode.url keys "https://optimism-rpc.publicnode.com"]⟩
  | .base => ⟨chainId, [RpcProvider.publicNode.url keys "https://base-rpc.publicnode.com"]⟩
  | .avalanche => ⟨chainId, [RpcProvider.publicNode.url keys "https://avalanche-c-chain-rpc.publicnode.com"]⟩
  | .fantom => ⟨chainId, [RpcProvider.publicNode.url keys "https://fantom-rpc.publicnode.com"]⟩

/-- `get_providers` (providers.rs:185-354). -/
def getProviders (keys : ApiKeys) (network : EvmNetwork) : RpcServices :=
  let chainId := network.chainId
  match network with
  | .ethereum => ⟨chainId,
      [RpcProvider.llamaNodes.url keys "https://eth.llamarpc.com",
       RpcProvider.ankr.url keys "https://rpc.ankr.com/eth",
       RpcProvider.publicNode.url keys "https://ethereum-rpc.publicnode.com"]⟩
  | .sepolia => ⟨chainId,
      [RpcProvider.ankr.url keys "https://rpc.ankr.com/eth_sepolia",
       RpcProvider.publicNode.url keys "https://ethereum-sepolia-rpc.publicnode.com"]⟩
  | .arbitrumOne => ⟨chainId,
      [RpcProvider.llamaNodes.url keys "https://arbitrum.llamarpc.com",
       RpcProvider.ankr.url keys "https://rpc.ankr.com/arbitrum",
       RpcProvider.publicNode.url keys "https://arbitrum-one-rpc.publicnode.com"]⟩
  | .bsc => ⟨chainId,
      [RpcProvider.llamaNodes.url keys "https://binance.llamarpc.com",
       RpcProvider.ankr.url keys "https://rpc.ankr.com/bsc",
       RpcProvider.publicNode.url keys "https://bsc-rpc.publicnode.com"]⟩
  | .polygon => ⟨chainId,
      [RpcProvider.llamaNodes.url keys "https://polygon.llamarpc.com",
       RpcProvider.ankr.url keys "https://rpc.ankr.com/polygon",
       RpcProvider.publicNode.url keys "https://polygon-bor-rpc.publicnode.com"]⟩
  | .optimism => ⟨chainId,
      [RpcProvider.llamaNodes.url keys "https://optimism.llamarpc.com",
       RpcProvider.ankr.url keys "https://rpc.ankr.com/optimism",
       RpcProvider.publicNode.url keys "https://optimism-rpc.publicnode.com"]⟩
  | .base => ⟨chainId,
      [RpcProvider.llamaNodes.url keys "https://base.llamarpc.com",
       RpcProvider.ankr.url keys "https://rpc.ankr.com/base",
       RpcProvider.publicNode.url keys "https://base-rpc.publicnode.com"]⟩
  | .avalanche => ⟨chainId,
      [RpcProvider.ankr.url keys "https://rpc.ankr.com/avalanche",
       RpcProvider.publicNode.url keys "https://avalanche-c-chain-rpc.publicnode.com"]⟩
  | .fantom => ⟨chainId,
      [RpcProvider.ankr.url keys "https://rpc.ankr.com/fantom",
       RpcProvider.publicNode.url keys "https://fantom-rpc.publicnode.com"]⟩
  | .bscTestnet => ⟨chainId,
      [RpcProvider.ankr.url keys "https://rpc.ankr.com/bsc_testnet_chapel",
       RpcProvider.publicNode.url keys "https://bsc-testnet-rpc.publicnode.com"]⟩

end EvmMinter
