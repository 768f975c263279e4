import Verif.Model.KeyStore

/-!
# C69: who is asked about the chain

For every network and whatever API keys are stored: the services asked are told the network's chain id, they are the provider's
own endpoint for that network, at least two of them with different URLs; no service is asked about two networks; the requests
that go to a single provider go to one of those that are asked otherwise; an API key appears only in URLs of its own provider.
-/

namespace EvmMinter

namespace Spec

/-- The chain ids of the networks, as registered (EIP-155). -/
def registeredChain : EvmNetwork → Nat
  | .ethereum => 1
  | .optimism => 10
  | .bsc => 56
  | .bscTestnet => 97
  | .polygon => 137
  | .fantom => 250
  | .base => 8453
  | .arbitrumOne => 42161
  | .avalanche => 43114
  | .sepolia => 11155111

/-- The end of the host names of a provider. -/
def domain : RpcProvider → List Char
  | .ankr => ".ankr.com".toList
  | .llamaNodes => ".llamarpc.com".toList
  | .publicNode => ".publicnode.com".toList

/-- `url` is `https://host`, followed by nothing or by a path, and `host` is one of the provider's: a name without slash that
ends in the provider's domain. -/
def AtProvider (p : RpcProvider) (url : List Char) : Prop :=
  ∃ name path, url = "https://".toList ++ name ++ domain p ++ path ∧ '/' ∉ name ∧ (path = [] ∨ ∃ r, path = '/' :: r)

/-- What a provider's URL looks like with the key stored for it: the key, if any, is the last segment of the path. -/
def WithKey (keys : ApiKeys) (p : RpcProvider) (base url : List Char) : Prop :=
  (keys p = none ∧ url = base) ∨ ∃ k, keys p = some k ∧ url = base ++ '/' :: k

end Spec

open Spec

/-- Could two URLs be the same after a key was appended to either? -/
def clash : List Char → List Char → Bool
  | [], [] => true
  | [], c :: _ => c == '/'
  | c :: _, [] => c == '/'
  | a :: as, b :: bs => a == b && clash as bs

theorem clash_of_eq : ∀ (a b x y : List Char), (x = [] ∨ ∃ r, x = '/' :: r) → (y = [] ∨ ∃ r, y = '/' :: r) →
    a ++ x = b ++ y → clash a b = true
  | [], [], _, _, _, _, _ => rfl
  | [], c :: bs, x, y, hx, _, h => by
      rcases hx with rfl | ⟨r, rfl⟩
      · simp at h
      · simp at h; simp [clash, ← h.1]
  | c :: as, [], x, y, _, hy, h => by
      rcases hy with rfl | ⟨r, rfl⟩
      · simp at h
      · simp at h; simp [clash, h.1]
  | a :: as, b :: bs, x, y, hx, hy, h => by
      simp only [List.cons_append, List.cons.injEq] at h
      simp [clash, h.1, clash_of_eq as bs x y hx hy h.2]

theorem RpcProvider.url_eq (p : RpcProvider) (keys : ApiKeys) (u : String) :
    ∃ x, p.url keys u = u.toList ++ x ∧ (x = [] ∨ ∃ r, x = '/' :: r) := by
  unfold RpcProvider.url
  cases keys p with
  | none => exact ⟨[], by simp, .inl rfl⟩
  | some k => exact ⟨'/' :: k, rfl, .inr ⟨k, rfl⟩⟩

theorem RpcProvider.withKey (p : RpcProvider) (keys : ApiKeys) (u : String) : WithKey keys p u.toList (p.url keys u) := by
  unfold RpcProvider.url WithKey
  cases hk : keys p with
  | none => exact .inl ⟨rfl, rfl⟩
  | some k => exact .inr ⟨k, rfl, rfl⟩

/-- The table behind `get_providers`. -/
def providerTable : EvmNetwork → List (RpcProvider × String)
  | .ethereum => [(.llamaNodes, "https://eth.llamarpc.com"), (.ankr, "https://rpc.ankr.com/eth"),
      (.publicNode, "https://ethereum-rpc.publicnode.com")]
  | .sepolia => [(.ankr, "https://rpc.ankr.com/eth_sepolia"), (.publicNode, "https://ethereum-sepolia-rpc.publicnode.com")]
  | .arbitrumOne => [(.llamaNodes, "https://arbitrum.llamarpc.com"), (.ankr, "https://rpc.ankr.com/arbitrum"),
      (.publicNode, "https://arbitrum-one-rpc.publicnode.com")]
  | .bsc => [(.llamaNodes, "https://binance.llamarpc.com"), (.ankr, "https://rpc.ankr.com/bsc"),
      (.publicNode, "https://bsc-rpc.publicnode.com")]
  | .bscTestnet => [(.ankr, "https://rpc.ankr.com/bsc_testnet_chapel"), (.publicNode, "https://bsc-testnet-rpc.publicnode.com")]
  | .polygon => [(.llamaNodes, "https://polygon.llamarpc.com"), (.ankr, "https://rpc.ankr.com/polygon"),
      (.publicNode, "https://polygon-bor-rpc.publicnode.com")]
  | .optimism => [(.llamaNodes, "https://optimism.llamarpc.com"), (.ankr, "https://rpc.ankr.com/optimism"),
      (.publicNode, "https://optimism-rpc.publicnode.com")]
  | .base => [(.llamaNodes, "https://base.llamarpc.com"), (.ankr, "https://rpc.ankr.com/base"),
      (.publicNode, "https://base-rpc.publicnode.com")]
  | .avalanche => [(.ankr, "https://rpc.ankr.com/avalanche"), (.publicNode, "https://avalanche-c-chain-rpc.publicnode.com")]
  | .fantom => [(.ankr, "https://rpc.ankr.com/fantom"), (.publicNode, "https://fantom-rpc.publicnode.com")]

theorem getProviders_eq (keys : ApiKeys) (n : EvmNetwork) :
    (getProviders keys n).services = (providerTable n).map (fun e => e.1.url keys e.2) := by
  cases n <;> rfl

/-- All networks. -/
def allNetworks : List EvmNetwork :=
  [.ethereum, .sepolia, .arbitrumOne, .bsc, .bscTestnet, .polygon, .optimism, .base, .avalanche, .fantom]

/-- A test for `AtProvider`. -/
def atProvider (p : RpcProvider) (u : List Char) : Bool :=
  u.take 8 == "https://".toList && decide (domain p <:+ (u.drop 8).takeWhile (· != '/'))

theorem atProvider_sound {p : RpcProvider} {u x : List Char} (h : atProvider p u = true) (hx : x = [] ∨ ∃ r, x = '/' :: r) :
    AtProvider p (u ++ x) := by
  simp only [atProvider, Bool.and_eq_true, beq_iff_eq, decide_eq_true_eq] at h
  obtain ⟨h1, name, h2⟩ := h
  refine ⟨name, (u.drop 8).dropWhile (· != '/') ++ x, ?_, ?_, ?_⟩
  · rw [← h1, List.append_assoc (u.take 8), h2, ← List.append_assoc, List.append_assoc (u.take 8), List.takeWhile_append_dropWhile,
      List.take_append_drop]
  · intro hm
    have : '/' ∈ (u.drop 8).takeWhile (· != '/') := by rw [← h2]; exact List.mem_append_left _ hm
    have h3 := List.all_takeWhile (l := u.drop 8) (p := (· != '/'))
    rw [List.all_eq_true] at h3
    simpa using h3 _ this
  · cases hd : (u.drop 8).dropWhile (· != '/') with
    | nil => simpa using hx
    | cons c r =>
      right
      have h4 := List.head?_dropWhile_not (· != '/') (u.drop 8)
      rw [hd] at h4
      simp at h4
      exact ⟨r ++ x, by rw [h4]; rfl⟩

theorem table_atProvider : ∀ n ∈ allNetworks, ∀ e ∈ providerTable n, atProvider e.1 e.2.toList = true := by decide +kernel

theorem mem_allNetworks (n : EvmNetwork) : n ∈ allNetworks := by cases n <;> simp [allNetworks]

theorem clash_networks : ∀ n ∈ allNetworks, ∀ n' ∈ allNetworks, n ≠ n' → ∀ e ∈ providerTable n, ∀ e' ∈ providerTable n',
    clash e.2.toList e'.2.toList = false := by decide +kernel

theorem clash_services : ∀ n ∈ allNetworks,
    (providerTable n).Pairwise (fun e e' => clash e.2.toList e'.2.toList = false) := by decide +kernel

/-- **C69**: all three choices of services carry the chain id of the network they are made for. -/
theorem C69_chain (keys : ApiKeys) (n : EvmNetwork) :
    (getProviders keys n).chainId = registeredChain n ∧ (getOneProviderAnkr keys n).chainId = registeredChain n ∧
    (getOneProviderPublicNode keys n).chainId = registeredChain n := by
  cases n <;> exact ⟨rfl, rfl, rfl⟩

/-- **C69**: at least two services are asked, whose URLs differ whatever keys are stored. -/
theorem C69_several (keys : ApiKeys) (n : EvmNetwork) :
    2 ≤ (getProviders keys n).services.length ∧ (getProviders keys n).services.Nodup := by
  refine ⟨by cases n <;> simp [getProviders], ?_⟩
  rw [getProviders_eq, List.Nodup, List.pairwise_map]
  refine (clash_services n (mem_allNetworks n)).imp ?_
  intro e e' h heq
  obtain ⟨x, h1, hx⟩ := e.1.url_eq keys e.2
  obtain ⟨y, h2, hy⟩ := e'.1.url_eq keys e'.2
  rw [h1, h2] at heq
  simp [clash_of_eq _ _ _ _ hx hy heq] at h

/-- **C69**: no service is asked about two networks, not even by minters that store different keys. -/
theorem C69_separate (keys keys' : ApiKeys) {n n' : EvmNetwork} (hn : n ≠ n') (url : List Char)
    (h : url ∈ (getProviders keys n).services) : url ∉ (getProviders keys' n').services := by
  rw [getProviders_eq] at *
  intro h'
  obtain ⟨e, he, rfl⟩ := List.mem_map.mp h
  obtain ⟨e', he', heq⟩ := List.mem_map.mp h'
  obtain ⟨x, h1, hx⟩ := e.1.url_eq keys e.2
  obtain ⟨y, h2, hy⟩ := e'.1.url_eq keys' e'.2
  rw [h1, h2] at heq
  have := clash_networks n (mem_allNetworks n) n' (mem_allNetworks n') hn e he e' he'
  rw [clash_of_eq _ _ _ _ hx hy heq.symm] at this
  simp at this

/-- **C69**: where a single provider is asked it is one of the providers asked otherwise. -/
theorem C69_single (keys : ApiKeys) (n : EvmNetwork) :
    (∃ url, (getOneProviderAnkr keys n).services = [url] ∧ url ∈ (getProviders keys n).services ∧ AtProvider .ankr url) ∧
    ∃ url, (getOneProviderPublicNode keys n).services = [url] ∧ url ∈ (getProviders keys n).services ∧
      AtProvider .publicNode url := by
  have key : ∀ e ∈ providerTable n, e.1.url keys e.2 ∈ (getProviders keys n).services ∧ AtProvider e.1 (e.1.url keys e.2) := by
    intro e he
    refine ⟨by rw [getProviders_eq]; exact List.mem_map.mpr ⟨e, he, rfl⟩, ?_⟩
    obtain ⟨x, h1, hx⟩ := e.1.url_eq keys e.2
    rw [h1]
    exact atProvider_sound (table_atProvider n (mem_allNetworks n) e he) hx
  constructor
  · have h : ∃ u, (RpcProvider.ankr, u) ∈ providerTable n ∧
        (getOneProviderAnkr keys n).services = [RpcProvider.ankr.url keys u] := by
      cases n <;> exact ⟨_, by simp [providerTable], rfl⟩
    obtain ⟨u, hu, h⟩ := h
    exact ⟨_, h, key _ hu⟩
  · have h : ∃ u, (RpcProvider.publicNode, u) ∈ providerTable n ∧
        (getOneProviderPublicNode keys n).services = [RpcProvider.publicNode.url keys u] := by
      cases n <;> exact ⟨_, by simp [providerTable], rfl⟩
    obtain ⟨u, hu, h⟩ := h
    exact ⟨_, h, key _ hu⟩

/-- **C69**: every service is the endpoint of one provider, and the URL contains, at the end of its path, the key of that
provider and no other. -/
theorem C69_keys (keys : ApiKeys) (n : EvmNetwork) (url : List Char) (h : url ∈ (getProviders keys n).services) :
    ∃ p base, AtProvider p base ∧ WithKey keys p base url ∧ ∀ keys', keys' p = keys p → url ∈ (getProviders keys' n).services := by
  rw [getProviders_eq] at h
  obtain ⟨e, he, rfl⟩ := List.mem_map.mp h
  refine ⟨e.1, e.2.toList, ?_, e.1.withKey keys e.2, ?_⟩
  · have := atProvider_sound (x := []) (table_atProvider n (mem_allNetworks n) e he) (.inl rfl)
    simpa using this
  · intro keys' hk
    rw [getProviders_eq]
    refine List.mem_map.mpr ⟨e, he, ?_⟩
    unfold RpcProvider.url
    rw [hk]

/-- **C69**: right after `init` the URLs of Ankr and Llama carry their own keys, those of PublicNode none. -/
theorem C69_init (ankr llama : List Char) :
    ApiKeys.atInit ankr llama .ankr = some ankr ∧ ApiKeys.atInit ankr llama .llamaNodes = some llama ∧
    ApiKeys.atInit ankr llama .publicNode = none := ⟨rfl, rfl, rfl⟩

theorem decode_provider (p : RpcProvider) : Cbor.decodeProvider (Cbor.provider p) = .ok p := by cases p <;> decide

/-- The entries have keys that can be decoded. -/
def KeyStore.Readable (st : KeyStore) : Prop := ∀ e ∈ st, ∃ p, e.1 = Cbor.provider p

theorem KeyStore.set_get {st : KeyStore} (h : st.Readable) (p : RpcProvider) (key : List Char) :
    ∃ st', st.set p key = .ok st' ∧ st'.Readable ∧ ∀ q, st'.get q = if q = p then .ok (some key) else st.get q := by
  induction st with
  | nil =>
    refine ⟨_, rfl, fun e he => ⟨p, by rw [List.mem_singleton.1 he]⟩, fun q => ?_⟩
    simp only [KeyStore.get, decode_provider, bind, Except.bind, pure, Except.pure]
    by_cases hq : q = p
    · simp [hq]
    · simp [hq, Ne.symm hq]
  | cons e t ih =>
    obtain ⟨b, old⟩ := e
    obtain ⟨r, hr⟩ := h (b, old) (by simp)
    dsimp only at hr
    subst hr
    obtain ⟨t', h1, h2, h3⟩ := ih fun e he => h e (by simp [he])
    by_cases hp : r = p
    · subst hp
      refine ⟨(Cbor.provider r, key) :: t, ?_, ?_, fun q => ?_⟩
      · unfold KeyStore.set
        rw [decode_provider]
        simp [bind, Except.bind, pure, Except.pure]
      · intro e he
        rcases List.mem_cons.1 he with rfl | he
        · exact ⟨r, rfl⟩
        · exact h e (by simp [he])
      · simp only [KeyStore.get, decode_provider, bind, Except.bind, pure, Except.pure]
        by_cases hq : q = r
        · simp [hq]
        · simp [hq, Ne.symm hq]
    · refine ⟨(Cbor.provider r, old) :: t', ?_, ?_, fun q => ?_⟩
      · unfold KeyStore.set
        rw [decode_provider]
        simp [bind, Except.bind, pure, Except.pure, hp, h1]
      · intro e he
        rcases List.mem_cons.1 he with rfl | he
        · exact ⟨r, rfl⟩
        · exact h2 e he
      · simp only [KeyStore.get, decode_provider, bind, Except.bind, pure, Except.pure, h3]
        by_cases hq : r = q
        · subst hq; simp [hp]
        · simp [hq]

/-- **C69**: stable memory returns for every provider the key that was stored for it last, whatever was stored for others, so what the
URLs are made of after any number of upgrades is what was stored. -/
theorem C69_stored (l : List (RpcProvider × List Char)) :
    ∃ st, l.foldlM (fun st x => KeyStore.set st x.1 x.2) [] = Except.ok st ∧
      (∀ p, st.get p = .ok ((l.reverse.find? (·.1 = p)).map (·.2))) ∧
      ∀ p, st.get p = .ok (l.foldl (fun k x => ApiKeys.set k x.1 x.2) (fun _ => none) p) := by
  suffices H : ∀ (l : List (RpcProvider × List Char)), ∃ st, l.reverse.foldlM (fun st x => KeyStore.set st x.1 x.2) [] = Except.ok st ∧
      st.Readable ∧ (∀ p, st.get p = .ok ((l.find? (·.1 = p)).map (·.2))) ∧
      ∀ p, st.get p = .ok (l.reverse.foldl (fun k x => ApiKeys.set k x.1 x.2) (fun _ => none) p) by
    obtain ⟨st, h1, _, h2, h3⟩ := H l.reverse
    rw [List.reverse_reverse] at h1 h3
    exact ⟨st, h1, h2, h3⟩
  intro l
  induction l with
  | nil => exact ⟨[], rfl, (fun e he => by cases he), fun _ => rfl, fun _ => rfl⟩
  | cons x t ih =>
    obtain ⟨st, h1, h2, h3, h4⟩ := ih
    obtain ⟨st', g1, g2, g3⟩ := KeyStore.set_get h2 x.1 x.2
    refine ⟨st', ?_, g2, fun p => ?_, fun p => ?_⟩
    · rw [List.reverse_cons, List.foldlM_append, h1]
      simp [bind, Except.bind, g1, pure, Except.pure]
    · rw [g3]
      by_cases hp : p = x.1
      · subst hp; simp
      · rw [if_neg hp, h3, List.find?_cons_of_neg (by simpa using Ne.symm hp)]
    · rw [g3, List.reverse_cons, List.foldl_append]
      show _ = Except.ok (ApiKeys.set _ x.1 x.2 p)
      unfold ApiKeys.set
      by_cases hp : p = x.1
      · rw [if_pos hp, if_pos hp]
      · rw [if_neg hp, if_neg hp]; exact h4 p

namespace Example

/-- **C69**, example: a key is replaced, the others stay. -/
theorem C69_example_stored :
    (do let st ← KeyStore.set [] .ankr "k1".toList
        let st ← st.set .llamaNodes "k2".toList
        let st ← st.set .ankr "k3".toList
        return [← st.get .ankr, ← st.get .llamaNodes, ← st.get .publicNode]) =
      (.ok [some "k3".toList, some "k2".toList, none] : Res (List (Option (List Char)))) := by decide +kernel

/-- **C69**, example: the services of the Ethereum minter after `init`. -/
theorem C69_example :
    getProviders (ApiKeys.atInit "k1".toList "k2".toList) .ethereum =
      ⟨1, ["https://eth.llamarpc.com/k2".toList, "https://rpc.ankr.com/eth/k1".toList,
        "https://ethereum-rpc.publicnode.com".toList]⟩ ∧
    (getOneProviderAnkr (ApiKeys.atInit "k1".toList "k2".toList) .sepolia).services =
      ["https://rpc.ankr.com/eth_sepolia/k1".toList] := by decide +kernel

end Example

end EvmMinter
