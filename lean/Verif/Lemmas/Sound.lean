import Verif.Lemmas.Live
import Verif.Lemmas.Frame
/-!
# The transactions built by the minter spend what was burned
-/

namespace EvmMinter

open Spec Transactions

/-- `omega` after unfolding the names of the amount types. -/
macro "womega" : tactic => `(tactic| (
  (try dsimp only [WeiPerGas, Wei, GasAmount, Erc20Value, BlockNumber, TransactionNonce, TransactionCount] at *)
  omega))

/-- The transaction of a native withdrawal. -/
structure NativeSound (q : NativeRequest) (tx : Tx) : Prop where
  data : tx.data = []
  gas : tx.gasLimit = 21000
  dest : tx.destination = q.destination
  amount : q.withdrawalAmount < u256Max → tx.amount + tx.gasLimit * tx.maxFeePerGas = q.withdrawalAmount

/-- The transaction of an ERC-20 withdrawal. -/
structure Erc20Sound (q : Erc20Request) (tx : Tx) : Prop where
  data : tx.data = Erc20Transfer.encode ⟨q.destination, q.withdrawalAmount⟩
  gas : tx.gasLimit = 65000
  dest : tx.destination = q.erc20ContractAddress
  amount : tx.amount = 0
  fee : q.maxTransactionFee < u256Max → tx.gasLimit * tx.maxFeePerGas ≤ q.maxTransactionFee
  cap : q.maxTransactionFee / 65000 ≤ tx.maxFeePerGas

def PaySound : Request → Tx → Prop
  | .native q, tx => NativeSound q tx
  | .erc20 q, tx => Erc20Sound q tx

/-- A transaction built for a request. -/
structure Sound (net : EvmNetwork) (r : Request) (tx : Tx) : Prop where
  chain : tx.chainId = net.chainId
  access : tx.accessList = []
  prio : tx.maxPriorityFeePerGas ≤ tx.maxFeePerGas
  maxFee : tx.maxFeePerGas < U256
  pay : PaySound r tx

/-- Amounts of a request fit in 256 bits. -/
def Request.Bounded : Request → Prop
  | .native q => q.withdrawalAmount < U256
  | .erc20 q => q.withdrawalAmount < U256 ∧ q.maxTransactionFee < U256 ∧ q.destination < 2 ^ 160

theorem u256Max_lt : u256Max < U256 := by unfold u256Max U256; omega
theorem u256_eq : U256 = u256Max + 1 := by unfold u256Max U256; omega

theorem getD_cases {o : Option Nat} {d : Nat} : (∃ x, o = some x ∧ o.getD d = x) ∨ (o = none ∧ o.getD d = d) := by
  cases o <;> simp

theorem cadd_none {a b : Nat} : cadd a b = none ↔ U256 ≤ a + b := by
  unfold cadd; split <;> simp <;> omega
theorem cmul_none {a b : Nat} : cmul a b = none ↔ U256 ≤ a * b := by
  unfold cmul; split <;> simp <;> omega

theorem maxTransactionFee_spec (p : TxPrice) :
    (p.maxTransactionFee = p.gasLimit * p.maxFeePerGas ∧ p.gasLimit * p.maxFeePerGas < U256) ∨
    (p.maxTransactionFee = u256Max ∧ U256 ≤ p.gasLimit * p.maxFeePerGas) := by
  unfold TxPrice.maxTransactionFee transactionCost cmul
  rw [Nat.mul_comm p.gasLimit]
  split
  · rename_i h; exact .inl ⟨rfl, h⟩
  · rename_i h; exact .inr ⟨rfl, Nat.not_lt.1 h⟩

theorem minMax_ge {g : GasFeeEstimate} (h : g.maxPriorityFeePerGas < U256) :
    g.maxPriorityFeePerGas ≤ g.minMaxFeePerGas ∧ g.minMaxFeePerGas < U256 := by
  unfold GasFeeEstimate.minMaxFeePerGas cadd
  have := u256_eq
  split <;> simp only [Option.getD] <;> womega

theorem maxFee_ge {g : GasFeeEstimate} (h : g.maxPriorityFeePerGas < U256) :
    g.maxPriorityFeePerGas ≤ g.maxFeePerGas ∧ g.maxFeePerGas < U256 := by
  unfold GasFeeEstimate.maxFeePerGas GasFeeEstimate.checkedMaxFeePerGas cadd cmul
  have := u256_eq
  split
  · simp only [Option.bind]
    split <;> simp only [Option.getD] <;> womega
  · simp only [Option.bind, Option.getD]; womega

theorem plus10_lt {a : Nat} : plus10Percent a < U256 := by
  unfold plus10Percent cadd
  have := u256_eq
  cases cdivCeil a 10 with
  | none => simp only [Option.bind, Option.getD]; womega
  | some c =>
    simp only [Option.bind]
    split <;> simp only [Option.getD] <;> womega

theorem create_sound {r : Request} {n : TransactionNonce} {g : GasFeeEstimate} {net : EvmNetwork} {tx : Tx}
    (hg : g.Bounded) (hr : r.Bounded)
    (h : createTransaction r n g (estimateGasLimit r) net = .ok (.ok tx)) : Sound net r tx := by
  cases r with
  | native q =>
    simp only [createTransaction, Res.bind_ok] at h
    obtain ⟨_, _, h⟩ := h
    split at h
    · simp [pure, Except.pure] at h
    · rename_i amount hc
      simp only [Res.pure_ok, Except.ok.injEq] at h
      subst h
      rw [csub_eq_some] at hc
      refine ⟨rfl, rfl, (maxFee_ge hg.2).1, (maxFee_ge hg.2).2, ⟨rfl, rfl, rfl, ?_⟩⟩
      intro hlt
      have hu := u256_eq
      rcases maxTransactionFee_spec (g.toPrice (estimateGasLimit (.native q))) with h1 | h1
      · rw [hc, h1.1]
      · rw [h1.1] at hc
        exfalso; womega
  | erc20 q =>
    simp only [createTransaction, Res.bind_ok] at h
    obtain ⟨_, _, a, ha, h⟩ := h
    split at h
    · simp [pure, Except.pure] at h
    · rename_i hle
      simp only [Res.pure_ok, Except.ok.injEq] at h
      subst h
      have hm := minMax_ge hg.2
      simp only [Res.expect_ok, intoWeiPerGas, cdivFloor, estimateGasLimit, erc20GasLimit] at ha
      simp only [show ¬ ((65000 : Nat) = 0) by womega, if_false, Option.some.injEq] at ha
      subst ha
      have hb := hr.2.1
      refine ⟨rfl, rfl, ?_, ?_, ⟨rfl, rfl, rfl, rfl, ?_, Nat.le_refl _⟩⟩
      · show g.maxPriorityFeePerGas ≤ q.maxTransactionFee / 65000
        womega
      · show q.maxTransactionFee / 65000 < U256
        womega
      · intro _
        show 65000 * (q.maxTransactionFee / 65000) ≤ q.maxTransactionFee
        womega

/-- What a replacement is. -/
theorem resubmit_replaced {t : Resubmittable SignedTx} {g : GasFeeEstimate} {tx : Tx}
    (h : t.resubmit g = .ok (.replaced tx)) : 
    ∃ p, p = t.transaction.tx.price.resubmit g ∧ p ≠ t.transaction.tx.price ∧
      p.maxTransactionFee ≤ t.resubmission.allowedMaxFee ∧
      tx = { t.transaction.tx with
        maxPriorityFeePerGas := p.maxPriorityFeePerGas, maxFeePerGas := p.maxFeePerGas, gasLimit := p.gasLimit,
        amount := tx.amount } ∧
      (∀ w, t.resubmission = .reduceEthAmount w → w = tx.amount + p.maxTransactionFee) ∧
      (∀ w, t.resubmission = .guaranteeEthAmount w → tx.amount = t.transaction.tx.amount) := by
  refine ⟨_, rfl, ?_⟩
  unfold Resubmittable.resubmit at h
  dsimp only at h
  split at h
  · cases h
  · rename_i h1
    split at h
    · cases h
    · rename_i h2
      refine ⟨h1, Nat.not_lt.1 h2, ?_⟩
      simp only [Res.bind_ok] at h
      obtain ⟨a, ha, h⟩ := h
      simp only [Res.pure_ok, ResubmitOutcome.replaced.injEq] at h
      subst h
      refine ⟨rfl, ?_, ?_⟩
      · intro w hw
        rw [hw] at ha
        simpa using ha
      · intro w hw
        rw [hw] at ha
        simpa using ha.symm

theorem resubmit_price {p : TxPrice} {g : GasFeeEstimate} (h : p.resubmit g ≠ p) :
    ¬ (p.maxFeePerGas ≥ g.minMaxFeePerGas ∧ p.maxPriorityFeePerGas ≥ g.maxPriorityFeePerGas) ∧
    (p.resubmit g).maxPriorityFeePerGas = max (plus10Percent p.maxPriorityFeePerGas) g.maxPriorityFeePerGas ∧
    (p.resubmit g).gasLimit = p.gasLimit ∧
    (p.resubmit g).maxFeePerGas = max (GasFeeEstimate.minMaxFeePerGas
      ⟨g.baseFeePerGas, max (plus10Percent p.maxPriorityFeePerGas) g.maxPriorityFeePerGas⟩) p.maxFeePerGas := by
  unfold TxPrice.resubmit at h ⊢
  split at h
  · exact absurd rfl h
  · rename_i h1
    rw [if_neg h1]
    exact ⟨h1, rfl, rfl, rfl⟩

theorem replaced_sound {net : EvmNetwork} {r : Request} {t : Resubmittable SignedTx} {g : GasFeeEstimate} {tx : Tx}
    (hg : g.Bounded) (hs : Sound net r t.transaction.tx) (hr : t.resubmission = strategyOf r)
    (h : t.resubmit g = .ok (.replaced tx)) : Sound net r tx := by
  obtain ⟨p, hp, hne, hle, htx, ha, hb⟩ := resubmit_replaced h
  rw [hp] at hne
  obtain ⟨_, h1, h2, h3⟩ := resubmit_price hne
  rw [← hp] at h1 h2 h3
  have hu := u256_eq
  have hprio : p.maxPriorityFeePerGas < U256 := by
    rw [h1]; have := plus10_lt (a := t.transaction.tx.price.maxPriorityFeePerGas); have := hg.2; womega
  have hm := minMax_ge (g := ⟨g.baseFeePerGas, p.maxPriorityFeePerGas⟩) hprio
  rw [← h1] at h3
  have hold : t.transaction.tx.price.maxFeePerGas < U256 := hs.maxFee
  have hmf : p.maxPriorityFeePerGas ≤ p.maxFeePerGas ∧ p.maxFeePerGas < U256 := by
    rw [h3]; dsimp only at hm; womega
  have hspec := maxTransactionFee_spec p
  rw [hr] at hle
  have hgl : p.gasLimit = t.transaction.tx.gasLimit := h2
  rw [htx]
  refine ⟨hs.chain, hs.access, hmf.1, hmf.2, ?_⟩
  have hpay := hs.pay
  cases r with
  | native q =>
    have ha := ha q.withdrawalAmount hr
    refine ⟨hpay.data, hgl.trans hpay.gas, hpay.dest, ?_⟩
    intro hlt
    show tx.amount + p.gasLimit * p.maxFeePerGas = q.withdrawalAmount
    have : p.maxTransactionFee ≤ q.withdrawalAmount := hle
    rcases hspec with hs | hs
    · womega
    · womega
  | erc20 q =>
    have hb := hb q.maxTransactionFee hr
    have hcap : t.transaction.tx.price.maxFeePerGas ≤ p.maxFeePerGas := by rw [h3]; womega
    refine ⟨hpay.data, hgl.trans hpay.gas, hpay.dest, hb.trans hpay.amount, ?_, Nat.le_trans (Erc20Sound.cap hpay) hcap⟩
    intro hlt
    show p.gasLimit * p.maxFeePerGas ≤ q.maxTransactionFee
    have : p.maxTransactionFee ≤ q.maxTransactionFee := hle
    rcases hspec with hs | hs
    · womega
    · womega

end EvmMinter
