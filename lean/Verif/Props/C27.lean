import Verif.Lemmas.Live
import Verif.Lemmas.Deposits
import Verif.Spec.ExampleRun
import Verif.Lemmas.SoundInv
import Verif.Model.Upgrade
/-!
# C27: the configuration is the one given by the accepted arguments, and stays valid
-/

namespace EvmMinter

/-- The configuration of the minter. A fee of zero means no fee. -/
structure Spec.Config where
  evmNetwork : EvmNetwork
  ecdsaKeyName : List Char
  nativeLedgerId : Principal
  nativeIndexId : Principal
  nativeSymbol : String
  helperContractAddress : Option Address
  evmCanisterId : Principal
  nativeLedgerTransferFee : Nat
  nativeMinimumWithdrawalAmount : Nat
  blockHeight : BlockTag
  firstScrapedBlockNumber : Nat
  depositNativeFee : Nat
  withdrawalNativeFee : Nat
  ledgerSuiteManagerId : Option Principal
  minMaxPriorityFeePerGas : Nat

open Spec

/-- The characters with the property `White_Space` (Unicode 16.0, PropList.txt). -/
def Spec.whiteSpace : List Nat :=
  [0x9, 0xa, 0xb, 0xc, 0xd, 0x20, 0x85, 0xa0, 0x1680, 0x2000, 0x2001, 0x2002, 0x2003, 0x2004, 0x2005, 0x2006, 0x2007, 0x2008, 0x2009,
    0x200a, 0x2028, 0x2029, 0x202f, 0x205f, 0x3000]

theorem isRustWhitespace_iff (c : Char) : isRustWhitespace c = true ↔ c.toNat ∈ whiteSpace := by
  simp only [isRustWhitespace, whiteSpace, List.mem_cons, List.not_mem_nil, or_false, Bool.or_eq_true, Bool.and_eq_true, decide_eq_true_eq,
    beq_iff_eq]
  omega

/-- The documented constraints: a key name that is not blank, a ledger that is not the anonymous principal, a helper
contract (if any) that is not the zero address, and a positive minimum withdrawal that covers the ledger's fee. -/
structure Spec.Config.Valid (c : Config) : Prop where
  key : ∃ ch ∈ c.ecdsaKeyName, ch.toNat ∉ whiteSpace
  ledger : c.nativeLedgerId ≠ Principal.anonymous
  helper : c.helperContractAddress ≠ some Address.zero
  positive : 0 < c.nativeMinimumWithdrawalAmount
  covers : c.nativeLedgerTransferFee ≤ c.nativeMinimumWithdrawalAmount

/-- The address given by the text, if any. -/
def Spec.Parses (x : Option (List Char)) (a : Option Address) : Prop :=
  match x with
  | none => a = none
  | some t => ∃ v, Address.parse t = some v ∧ a = some v

/-- The configuration described by init arguments, with the helper address parsed. -/
def Spec.Config.ofInit (a : InitArg) (helper : Option Address) : Config where
  evmNetwork := a.evmNetwork
  ecdsaKeyName := a.ecdsaKeyName
  nativeLedgerId := a.nativeLedgerId
  nativeIndexId := a.nativeIndexId
  nativeSymbol := a.nativeSymbol
  helperContractAddress := helper
  evmCanisterId := ⟨[0, 0, 0, 0, 0, 0xc0, 0x58, 0x96, 1, 1]⟩
  nativeLedgerTransferFee := a.nativeLedgerTransferFee
  nativeMinimumWithdrawalAmount := a.nativeMinimumWithdrawalAmount
  blockHeight := a.blockHeight
  firstScrapedBlockNumber := a.lastScrapedBlockNumber + 1
  depositNativeFee := a.depositNativeFee
  withdrawalNativeFee := a.withdrawalNativeFee
  ledgerSuiteManagerId := some a.ledgerSuiteManagerId
  minMaxPriorityFeePerGas := a.minMaxPriorityFeePerGas

/-- The configuration after an upgrade: exactly the given fields are replaced. -/
def Spec.Config.upgraded (c : Config) (a : UpgradeArg) (helper : Option Address) : Config :=
  { c with
    helperContractAddress := helper <|> c.helperContractAddress
    evmCanisterId := a.evmRpcId.getD c.evmCanisterId
    nativeLedgerTransferFee := a.nativeLedgerTransferFee.getD c.nativeLedgerTransferFee
    nativeMinimumWithdrawalAmount := a.nativeMinimumWithdrawalAmount.getD c.nativeMinimumWithdrawalAmount
    blockHeight := a.blockHeight.getD c.blockHeight
    depositNativeFee := a.depositNativeFee.getD c.depositNativeFee
    withdrawalNativeFee := a.withdrawalNativeFee.getD c.withdrawalNativeFee
    minMaxPriorityFeePerGas := a.minMaxPriorityFeePerGas.getD c.minMaxPriorityFeePerGas }

/-- The numbers of the arguments are 256-bit numbers, and so is the first block to scrape. -/
def Spec.InitFits (a : InitArg) : Prop :=
  a.nextTransactionNonce < 2 ^ 256 ∧ a.nativeMinimumWithdrawalAmount < 2 ^ 256 ∧ a.nativeLedgerTransferFee < 2 ^ 256 ∧
  a.lastScrapedBlockNumber + 1 < 2 ^ 256 ∧ a.minMaxPriorityFeePerGas < 2 ^ 256 ∧ a.depositNativeFee < 2 ^ 256 ∧
  a.withdrawalNativeFee < 2 ^ 256

/-- The numbers given in an upgrade are 256-bit numbers. -/
def Spec.UpgradeFits (a : UpgradeArg) : Prop :=
  ∀ o ∈ [a.nextTransactionNonce, a.nativeMinimumWithdrawalAmount, a.nativeLedgerTransferFee, a.minMaxPriorityFeePerGas,
    a.lastScrapedBlockNumber, a.depositNativeFee, a.withdrawalNativeFee], ∀ n, o = some n → n < 2 ^ 256

/-- The configuration held in the state. -/
def State.config (s : State) : Config where
  evmNetwork := s.evmNetwork
  ecdsaKeyName := s.ecdsaKeyName
  nativeLedgerId := s.nativeLedgerId
  nativeIndexId := s.nativeIndexId
  nativeSymbol := s.nativeSymbol
  helperContractAddress := s.helperContractAddress
  evmCanisterId := s.evmCanisterId
  nativeLedgerTransferFee := s.nativeLedgerTransferFee
  nativeMinimumWithdrawalAmount := s.nativeMinimumWithdrawalAmount
  blockHeight := s.blockHeight
  firstScrapedBlockNumber := s.firstScrapedBlockNumber
  depositNativeFee := s.depositNativeFee.getD 0
  withdrawalNativeFee := s.withdrawalNativeFee.getD 0
  ledgerSuiteManagerId := s.ledgerSuiteManagerId
  minMaxPriorityFeePerGas := s.minMaxPriorityFeePerGas

theorem validateConfig_ok {s : State} : s.validateConfig = .ok () ↔ s.config.Valid := by
  unfold State.validateConfig
  split
  · rename_i h
    constructor
    · intro h; cases h
    · rintro ⟨⟨c, hc, hw⟩, _⟩
      rw [List.all_eq_true] at h
      have : isRustWhitespace c = true := h c hc
      exact (hw ((isRustWhitespace_iff c).1 this)).elim
  rename_i h1
  split
  · constructor
    · intro h; cases h
    · rintro ⟨_, h, _⟩; exact absurd (by assumption) h
  split
  · constructor
    · intro h; cases h
    · rintro ⟨_, _, h, _⟩; exact absurd (by assumption) h
  split
  · rename_i h
    constructor
    · intro h; cases h
    · rintro ⟨_, _, _, h', _⟩
      have h' : 0 < s.nativeMinimumWithdrawalAmount := h'
      rw [h] at h'; exact absurd h' (Nat.lt_irrefl _)
  split
  · rename_i h
    constructor
    · intro h; cases h
    · rintro ⟨_, _, _, _, h'⟩; exact absurd h (Nat.not_lt.2 h')
  · rename_i h2 h3 h4 h5
    refine ⟨fun _ => ⟨?_, h2, h3, Nat.pos_of_ne_zero h4, Nat.le_of_not_lt h5⟩, fun _ => rfl⟩
    have : ∃ c ∈ s.ecdsaKeyName, ¬ isRustWhitespace c = true := by
      apply Decidable.byContradiction
      intro hn
      exact h1 (List.all_eq_true.2 fun c hc => Decidable.byContradiction fun hw => hn ⟨c, hc, hw⟩)
    obtain ⟨c, hc, hw⟩ := this
    exact ⟨c, hc, fun h => hw ((isRustWhitespace_iff c).2 h)⟩

theorem feeOption_getD (n : Nat) : (State.feeOption n).getD 0 = n := by
  unfold State.feeOption
  split
  · rename_i h; rw [h]; rfl
  · rfl

theorem parseHelper_ok {x : Option (List Char)} {a : Option Address} : State.parseHelper x = .ok a ↔ Parses x a := by
  cases x with
  | none => simp only [State.parseHelper, Parses, Except.ok.injEq]; exact eq_comm
  | some t =>
    simp only [State.parseHelper, Parses]
    cases Address.parse t with
    | none => simp [orErr, Except.map]
    | some v => simp [orErr, Except.map, eq_comm]

/-- **C27** (init): exactly the well-formed arguments that describe a valid configuration are accepted, and the
configuration is then the one described. -/
theorem C27_init_accepts_exactly (a : InitArg) :
    ((∃ s, State.ofInit a = .ok s) ↔ ∃ helper, Parses a.helperContractAddress helper ∧ InitFits a ∧
      (Config.ofInit a helper).Valid) ∧
    (∀ s, State.ofInit a = .ok s → ∃ helper, Parses a.helperContractAddress helper ∧ s.config = Config.ofInit a helper) := by
  have hcfg : ∀ s, State.ofInit a = .ok s → ∃ helper, Parses a.helperContractAddress helper ∧ InitFits a ∧
      s.config = Config.ofInit a helper ∧ s.config.Valid := by
    intro s h
    simp only [State.ofInit, bind_ok', pure_ok', orErr_ok, u256OfNat_some] at h
    obtain ⟨n, ⟨rfl, hn⟩, w, ⟨rfl, hw⟩, f, ⟨rfl, hf⟩, hp, hhp, l, ⟨rfl, hl⟩, p, ⟨rfl, hpp⟩, fs, hfs, d, ⟨rfl, hd⟩,
      wf, ⟨rfl, hwf⟩, _, hv, rfl⟩ := h
    simp only [cinc, cadd_eq_some] at hfs
    obtain ⟨rfl, hb⟩ := hfs
    refine ⟨hp, parseHelper_ok.1 hhp, ⟨hn, hw, hf, hb, hpp, hd, hwf⟩, ?_, validateConfig_ok.1 hv⟩
    simp only [State.config, Config.ofInit, feeOption_getD, State.defaultEvmCanisterId]
  refine ⟨⟨?_, ?_⟩, ?_⟩
  · rintro ⟨s, h⟩
    obtain ⟨hp, h1, h2, h3, h4⟩ := hcfg s h
    exact ⟨hp, h1, h2, h3 ▸ h4⟩
  · rintro ⟨hp, h1, ⟨hn, hw, hf, hb, hpp, hd, hwf⟩, h3⟩
    have hl : a.lastScrapedBlockNumber < U256 := Nat.lt_of_succ_lt hb
    have hc : cinc a.lastScrapedBlockNumber = some (a.lastScrapedBlockNumber + 1) := by
      rw [cinc, cadd_eq_some]; exact ⟨rfl, hb⟩
    refine Exists.imp (p := fun s => State.ofInit a = .ok s) (fun _ h => h) ?_
    simp only [State.ofInit, bind_ok', pure_ok', orErr_ok, u256OfNat_some]
    refine ⟨_, _, ⟨rfl, hn⟩, _, ⟨rfl, hw⟩, _, ⟨rfl, hf⟩, hp, parseHelper_ok.2 h1, _, ⟨rfl, hl⟩, _, ⟨rfl, hpp⟩, _, hc, _,
      ⟨rfl, hd⟩, _, ⟨rfl, hwf⟩, (), validateConfig_ok.2 ?_, rfl⟩
    obtain ⟨k1, k2, k3, k4, k5⟩ := h3
    exact ⟨k1, k2, k3, k4, k5⟩
  · intro s h
    obtain ⟨hp, h1, _, h3, _⟩ := hcfg s h
    exact ⟨hp, h1, h3⟩

theorem feeOr_getD (o : Option Wei) (n : Option Nat) : (feeOr o n).getD 0 = n.getD (o.getD 0) := by
  cases n with
  | none => rfl
  | some n => exact feeOption_getD n

/-- **C27** (upgrade): exactly the well-formed arguments that lead to a valid configuration are accepted, and they
replace exactly the given fields. -/
theorem C27_upgrade_accepts_exactly (s : State) (a : UpgradeArg) :
    ((∃ s', s.upgrade a = .ok s') ↔ ∃ helper, Parses a.helperContractAddress helper ∧ UpgradeFits a ∧
      (s.config.upgraded a helper).Valid) ∧
    (∀ s', s.upgrade a = .ok s' → ∃ helper, Parses a.helperContractAddress helper ∧
      s'.config = s.config.upgraded a helper ∧
      s'.lastScrapedBlockNumber = a.lastScrapedBlockNumber.getD s.lastScrapedBlockNumber ∧
      s'.txs.nextNonce = a.nextTransactionNonce.getD s.txs.nextNonce ∧
      s' = { s with
        txs := s'.txs, nativeMinimumWithdrawalAmount := s'.nativeMinimumWithdrawalAmount,
        nativeLedgerTransferFee := s'.nativeLedgerTransferFee, minMaxPriorityFeePerGas := s'.minMaxPriorityFeePerGas,
        helperContractAddress := s'.helperContractAddress, lastScrapedBlockNumber := s'.lastScrapedBlockNumber,
        blockHeight := s'.blockHeight, evmCanisterId := s'.evmCanisterId, depositNativeFee := s'.depositNativeFee,
        withdrawalNativeFee := s'.withdrawalNativeFee } ∧
      s'.txs = { s.txs with nextNonce := s'.txs.nextNonce }) := by
  have hcfg : ∀ s', s.upgrade a = .ok s' → ∃ helper, Parses a.helperContractAddress helper ∧ UpgradeFits a ∧
      s'.config = s.config.upgraded a helper ∧ s'.config.Valid ∧
      s'.lastScrapedBlockNumber = a.lastScrapedBlockNumber.getD s.lastScrapedBlockNumber ∧
      s'.txs = withNonce s.txs a.nextTransactionNonce ∧
      s' = { s with
        txs := s'.txs, nativeMinimumWithdrawalAmount := s'.nativeMinimumWithdrawalAmount,
        nativeLedgerTransferFee := s'.nativeLedgerTransferFee, minMaxPriorityFeePerGas := s'.minMaxPriorityFeePerGas,
        helperContractAddress := s'.helperContractAddress, lastScrapedBlockNumber := s'.lastScrapedBlockNumber,
        blockHeight := s'.blockHeight, evmCanisterId := s'.evmCanisterId, depositNativeFee := s'.depositNativeFee,
        withdrawalNativeFee := s'.withdrawalNativeFee } := by
    intro s' h
    obtain ⟨hp, h1, h2, h3, b1, b2, b3, b4, b5, b6, b7⟩ := upgrade_ok h
    have hv := validateConfig_ok.1 h3
    have hfit : UpgradeFits a := by
      intro o ho
      simp only [List.mem_cons, List.not_mem_nil, or_false] at ho
      rcases ho with rfl | rfl | rfl | rfl | rfl | rfl | rfl <;> assumption
    cases hx : a.helperContractAddress with
    | none =>
      rw [hx] at h1
      have h1 : hp = s.helperContractAddress := h1
      subst h1
      refine ⟨none, rfl, hfit, ?_, hv, ?_, ?_, ?_⟩
      · rw [h2]; simp only [State.config, Config.upgraded, feeOr_getD, Option.orElse_eq_orElse, Option.orElse_none]
      · rw [h2]
      · rw [h2]
      · rw [h2]
    | some t =>
      rw [hx] at h1
      obtain ⟨v, hv1, rfl⟩ := h1
      refine ⟨some v, ⟨v, hv1, rfl⟩, hfit, ?_, hv, ?_, ?_, ?_⟩
      · rw [h2]; simp only [State.config, Config.upgraded, feeOr_getD, Option.orElse_eq_orElse, Option.orElse_some]
      · rw [h2]
      · rw [h2]
      · rw [h2]
  refine ⟨⟨?_, ?_⟩, ?_⟩
  · rintro ⟨s', h⟩
    obtain ⟨hp, h1, h2, h3, h4, _⟩ := hcfg s' h
    exact ⟨hp, h1, h2, h3 ▸ h4⟩
  · rintro ⟨hp, h1, h2, h3⟩
    obtain ⟨n1, n2, n3, n4, n5, n6, n7, n8, n9, n10⟩ := a
    simp only [UpgradeFits, List.mem_cons, List.not_mem_nil, or_false, forall_eq_or_imp, forall_eq] at h2
    obtain ⟨f1, f2, f3, f4, f5, f6, f7⟩ := h2
    have num : ∀ (o : Option Nat) (e : InvalidStateError) (f : State → Nat → State) (g : State → Option Nat → State) (x : State),
        (∀ n, o = some n → n < U256) → (g x none = x) → (∀ n, g x (some n) = f x n) →
        State.updOpt o (fun s n => do let n ← orErr (u256OfNat n) e; return f s n) x = .ok (g x o) := by
      intro o e f g x ho hg1 hg2
      cases o with
      | none => rw [hg1]; rfl
      | some n =>
        have : u256OfNat n = some n := u256OfNat_some.2 ⟨rfl, ho n rfl⟩
        rw [hg2]
        simp only [State.updOpt, this, orErr]; rfl
    have tot : ∀ {α : Type} (o : Option α) (f : State → α → State) (g : State → Option α → State) (x : State),
        (g x none = x) → (∀ n, g x (some n) = f x n) →
        State.updOpt o (fun s n => .ok (f s n)) x = .ok (g x o) := by
      intro α o f g x hg1 hg2
      cases o with
      | none => rw [hg1]; rfl
      | some n => rw [hg2]; rfl
    have hhelp : ∀ x : State, State.updOpt n3 (fun s h => do
        let h ← orErr (Address.parse h) InvalidStateError.helperContractAddress
        return { s with helperContractAddress := some h }) x
        = .ok { x with helperContractAddress := hp <|> x.helperContractAddress } := by
      intro x
      cases n3 with
      | none =>
        have h1 : hp = none := h1
        subst h1; rfl
      | some t =>
        obtain ⟨v, hv1, rfl⟩ := h1
        simp only [State.updOpt, hv1, orErr]; rfl
    unfold State.upgrade
    simp only [bind_ok', pure_ok']
    refine ⟨_, _, num n1 _ _ (fun s n => { s with txs := withNonce s.txs n }) s f1 rfl (fun _ => rfl),
      _, num n2 _ _ (fun s n => { s with nativeMinimumWithdrawalAmount := n.getD s.nativeMinimumWithdrawalAmount }) _ f2 rfl (fun _ => rfl),
      _, num n7 _ _ (fun s n => { s with nativeLedgerTransferFee := n.getD s.nativeLedgerTransferFee }) _ f3 rfl (fun _ => rfl),
      _, num n8 _ _ (fun s n => { s with minMaxPriorityFeePerGas := n.getD s.minMaxPriorityFeePerGas }) _ f4 rfl (fun _ => rfl),
      _, hhelp _,
      _, num n5 _ _ (fun s n => { s with lastScrapedBlockNumber := n.getD s.lastScrapedBlockNumber }) _ f5 rfl (fun _ => rfl),
      _, tot n4 _ (fun s n => { s with blockHeight := n.getD s.blockHeight }) _ rfl (fun _ => rfl),
      _, tot n6 _ (fun s n => { s with evmCanisterId := n.getD s.evmCanisterId }) _ rfl (fun _ => rfl),
      _, num n9 _ _ (fun s n => { s with depositNativeFee := feeOr s.depositNativeFee n }) _ f6 rfl (fun _ => rfl),
      _, num n10 _ _ (fun s n => { s with withdrawalNativeFee := feeOr s.withdrawalNativeFee n }) _ f7 rfl (fun _ => rfl),
      (), validateConfig_ok.2 ?_, rfl⟩
    obtain ⟨k1, k2, k3, k4, k5⟩ := h3
    exact ⟨k1, k2, k3, k4, k5⟩
  · intro s' h
    obtain ⟨hp, h1, _, h3, _, h5, h6, h7⟩ := hcfg s' h
    refine ⟨hp, h1, h3, h5, ?_, h7, ?_⟩
    · rw [h6]; cases a.nextTransactionNonce <;> rfl
    · rw [h6]; cases a.nextTransactionNonce <;> rfl

/-- The configuration that results from the init and upgrade arguments of a history. -/
def Spec.configStep (c : Option Config) : Event → Option Config
  | .init a => some (Config.ofInit a (a.helperContractAddress.bind Address.parse))
  | .upgrade a => c.map (·.upgraded a (a.helperContractAddress.bind Address.parse))
  | _ => c

def Spec.configOf (log : List Event) : Option Config := log.foldl configStep none

theorem parses_eq {x : Option (List Char)} {a : Option Address} (h : Parses x a) : a = x.bind Address.parse := by
  cases x with
  | none => exact h
  | some t => obtain ⟨v, h1, rfl⟩ := h; exact h1.symm

section
variable [Keccak]

/-- **C27.** In every reachable state the configuration is the one given by the init and upgrade arguments in the log,
and satisfies the documented constraints. -/
theorem C27_configuration {log : List Event} {s : State} (h : Run log s) :
    configOf log = some s.config ∧ s.config.Valid := by
  obtain ⟨s₀, h1, _, _, h4⟩ := run_replay h
  have key : configOf log = some s₀.config ∧ s₀.config.Valid := by
    refine replay_induct (P := fun log s => configOf log = some s.config ∧ s.config.Valid) ?_ ?_ h1
    · intro a s h
      obtain ⟨hp, g1, g2⟩ := (C27_init_accepts_exactly a).2 s h
      obtain ⟨hp', g1', _, g3⟩ := (C27_init_accepts_exactly a).1.1 ⟨s, h⟩
      refine ⟨?_, ?_⟩
      · rw [g2, parses_eq g1]; rfl
      · rw [g2, parses_eq g1, ← parses_eq g1']; exact g3
    · intro log s e s' _ ih ha
      have hs : configOf (log ++ [e]) = configStep (configOf log) e := by simp [configOf]
      rw [hs, ih.1]
      by_cases hu : ∃ a, e = .upgrade a
      · obtain ⟨a, rfl⟩ := hu
        simp only [applyEvent] at ha
        split at ha
        case h_2 => cases ha
        rename_i s1 hup
        cases ha
        obtain ⟨hp, g1, g2, _⟩ := (C27_upgrade_accepts_exactly s a).2 _ hup
        obtain ⟨hp', g1', _, g3⟩ := (C27_upgrade_accepts_exactly s a).1.1 ⟨_, hup⟩
        refine ⟨?_, ?_⟩
        · rw [g2, parses_eq g1]; rfl
        · rw [g2, parses_eq g1, ← parses_eq g1']; exact g3
      · obtain ⟨f1, f2, _⟩ := applyEvent_frame ha
        have f2 := f2 (fun a h => hu ⟨a, h⟩)
        have hc : s'.config = s.config := by
          simp only [State.fixed, FixedConfig.mk.injEq] at f1
          simp only [State.upgradable, UpgradableConfig.mk.injEq] at f2
          obtain ⟨a1, a2, a3, a4, a5, a6, a7, a8⟩ := f1
          obtain ⟨b1, b2, b3, b4, b5, b6, b7, b8⟩ := f2
          simp only [State.config, a1, a2, a3, a4, a5, a6, a7, b1, b2, b3, b4, b5, b6, b7, b8]
        have hst : configStep (some s.config) e = some s.config := by
          cases e with
          | init a => simp [applyEvent] at ha
          | upgrade a => exact absurd ⟨a, rfl⟩ hu
          | _ => rfl
        rw [hst, hc]
        exact ⟨rfl, ih.2⟩
  have hc : s.config = s₀.config := by rw [h4]; rfl
  rw [hc]; exact key

/-- When an upgrade argument is acceptable for a canister with configuration `c`. -/
def Spec.UpgradeAcceptable (c : Config) (arg : Option MinterArg) : Prop :=
  match arg with
  | none => True
  | some (.init _) => False
  | some (.upgrade a) => ∃ helper, Parses a.helperContractAddress helper ∧ UpgradeFits a ∧ (c.upgraded a helper).Valid

/-- **C27** (whole upgrade): an unacceptable argument changes neither log nor state; an acceptable one leads to a
reachable state, with the configuration updated as given (see `C27_configuration`). -/
theorem C27_upgrade_canister {log : List Event} {s : State} (h : Run log s) (arg : Option MinterArg) :
    (¬ UpgradeAcceptable s.config arg → upgradeCanister log s arg = (log, s)) ∧
    (UpgradeAcceptable s.config arg → ∃ log' s', upgradeCanister log s arg = (log', s') ∧ Run log' s' ∧
      log' = log ++ [.syncedToBlock s.lastScrapedBlockNumber] ++
        (match arg with | some (.upgrade a) => [.upgrade a] | _ => [])) := by
  have hr : Run (log ++ [.syncedToBlock s.lastScrapedBlockNumber]) s := .event _ _ _ _ h rfl rfl
  obtain ⟨s₀, h1, _, _, h4⟩ := run_replay hr
  have hr0 : Run (log ++ [.syncedToBlock s.lastScrapedBlockNumber]) s₀ := .restart _ _ _ hr h1
  have hc : s₀.config = s.config := by rw [h4]; rfl
  cases arg with
  | none =>
    refine ⟨fun hn => absurd trivial hn, fun _ => ⟨_, s₀, ?_, hr0, by simp⟩⟩
    simp only [upgradeCanister, postUpgrade, h1, bind, Except.bind, pure, Except.pure]
  | some x =>
    cases x with
    | init a => exact ⟨fun _ => rfl, fun hf => absurd hf (fun h => h)⟩
    | upgrade a =>
      have hiff := (C27_upgrade_accepts_exactly s₀ a).1
      rw [hc] at hiff
      have happ : applyEvent s₀ (.upgrade a) = match s₀.upgrade a with
        | .ok s' => .ok s'
        | .error _ => .error "applying upgrade event should succeed" := rfl
      refine ⟨fun hn => ?_, fun hok => ?_⟩
      · simp only [upgradeCanister, postUpgrade, h1, bind, Except.bind, pure, Except.pure, happ]
        cases hup : s₀.upgrade a with
        | error e => rfl
        | ok s' => exact absurd (hiff.1 ⟨s', hup⟩) hn
      · obtain ⟨s', hup⟩ := hiff.2 hok
        refine ⟨_, s', ?_, Run.event _ _ (.upgrade a) _ hr0 trivial (by rw [happ, hup]), rfl⟩
        simp only [upgradeCanister, postUpgrade, h1, bind, Except.bind, pure, Except.pure, happ, hup]

end

/-- The example history: an acceptable upgrade and one that is rejected because the minimum would not cover the fee. -/
example : ∃ s, Run Example.log s ∧
    UpgradeAcceptable s.config (some (.upgrade { nativeLedgerTransferFee := some 20 })) ∧
    ¬ UpgradeAcceptable s.config (some (.upgrade { nativeLedgerTransferFee := some 3000000000 })) := by
  obtain ⟨s, hs, _⟩ := Example.log_run
  obtain ⟨h1, h2⟩ := C27_configuration hs
  have h3 : configOf Example.log = some ((Config.ofInit Example.initArg (some 0xcafe)).upgraded
      { nativeMinimumWithdrawalAmount := some 2000000000 } none) := by
    have : (some "0x000000000000000000000000000000000000cafe".toList).bind Address.parse = some 0xcafe := by decide +kernel
    simp only [configOf, Example.log, List.foldl_cons, List.foldl_nil, configStep, Example.initArg, this]
    rfl
  rw [h3] at h1
  simp only [Option.some.injEq] at h1
  refine ⟨s, hs, ?_⟩
  rw [← h1]
  refine ⟨⟨none, rfl, ?_, ?_⟩, ?_⟩
  · intro o ho n hn
    simp only [List.mem_cons, List.not_mem_nil, or_false] at ho
    rcases ho with rfl | rfl | rfl | rfl | rfl | rfl | rfl <;> simp at hn
    subst hn; decide
  · exact ⟨⟨'k', by decide +kernel, by decide +kernel⟩, by decide +kernel, by decide +kernel, by decide +kernel, by decide +kernel⟩
  · rintro ⟨helper, _, _, hv⟩
    exact absurd hv.covers (by show ¬ (3000000000 : Nat) ≤ 2000000000; decide)

end EvmMinter
