import Verif.Props.C44
import Verif.Spec.World
import Verif.Spec.ExampleWorld
/-!
# C58: which withdrawals are let in, and with what answer the others are sent away
-/

namespace EvmMinter
open Spec

namespace Spec

/-- A call of a withdrawal endpoint gets past the guard. -/
structure Admitted (c : Mem) (caller : Principal) : Prop where
  named : caller ≠ Principal.anonymous
  pending : c.m.st.txs.pending.length < 100
  single : caller ∉ c.principals
  few : c.principals.length < 100

/-- The string is a non-zero address. -/
def Destination (s : List Char) (a : Address) : Prop := Address.parse s = some a ∧ a ≠ 0

/-- The memory with the caller locked. -/
def _root_.EvmMinter.Mem.locked (c : Mem) (caller : Principal) : Mem := { c with principals := caller :: c.principals }

/-- The transfer of the withdrawal fee. -/
def withdrawalFeeCall (c : Mem) (caller : Principal) (fee : Nat) : LedgerCall :=
  ⟨c.m.st.nativeLedgerId, .transfer ⟨caller, none⟩ ⟨c.id, some feesSubaccount⟩ (fee - c.m.st.nativeLedgerTransferFee), none⟩

/-- The burn of the amount of a native withdrawal. -/
def nativeBurnCall (c : Mem) (caller : Principal) (amount : Nat) (dest : Address) : LedgerCall :=
  ⟨c.m.st.nativeLedgerId, .burn ⟨caller, none⟩ amount, some (.burn (.convert dest))⟩

/-- The burn of the transaction fee of an ERC-20 withdrawal. -/
def txFeeBurnCall (c : Mem) (caller : Principal) (txFee amount : Nat) (symbol : String) (dest : Address) : LedgerCall :=
  ⟨c.m.st.nativeLedgerId, .burn ⟨caller, none⟩ txFee, some (.burn (.erc20GasFee symbol amount dest))⟩

/-- The message ends with `r` and leaves the memory as it was. -/
def Sends (c : Mem) (r : Reply) (x : Res (Mem × Next)) : Prop := x = .ok (c, .finish (some r))

/-- The message makes the ledger call `k`, with memory `c`. -/
def Calls (c : Mem) (k : LedgerCall) (x : Res (Mem × Next)) : Prop :=
  ∃ t : LedgerTask, x = .ok (c, .await (.ledger t)) ∧ t.call c.id = k

/-- The message traps. -/
def Traps (x : Res (Mem × Next)) : Prop := ∃ e, x = .error e

/-- The caller is charged `txFee` for an ERC-20 withdrawal, after the withdrawal fee if there is one. -/
def Charges (c : Mem) (caller : Principal) (txFee amount : Nat) (symbol : String) (dest : Address) (x : Res (Mem × Next)) : Prop :=
  (c.m.st.withdrawalNativeFee = none → Calls c (txFeeBurnCall c caller txFee amount symbol dest) x) ∧
  ∀ fee, c.m.st.withdrawalNativeFee = some fee →
    (c.m.st.nativeLedgerTransferFee ≤ fee → Calls c (withdrawalFeeCall c caller fee) x) ∧
    (fee < c.m.st.nativeLedgerTransferFee → Traps x)

end Spec

theorem lockCaller_admitted {c : Mem} {caller : Principal} (h : Admitted c caller) : c.lockCaller caller = .ok (c.locked caller) := by
  unfold Mem.lockCaller Mem.enter
  rw [if_neg h.named, if_neg (Nat.not_le.2 h.pending), if_neg h.single, if_neg (Nat.not_le.2 h.few)]
  rfl

theorem lockCaller_refused {c : Mem} {caller : Principal} (h : ¬ Admitted c caller) : ∃ e, c.lockCaller caller = .error e := by
  unfold Mem.lockCaller
  split
  · exact ⟨_, rfl⟩
  · rename_i h0
    unfold Mem.enter
    by_cases h1 : c.m.st.txs.pending.length ≥ 100
    · rw [if_pos h1]; exact ⟨_, rfl⟩
    · rw [if_neg h1]
      by_cases h2 : caller ∈ c.principals
      · rw [if_pos h2]; exact ⟨_, rfl⟩
      · rw [if_neg h2]
        by_cases h3 : c.principals.length ≥ 100
        · rw [if_pos h3]; exact ⟨_, rfl⟩
        · exact absurd ⟨h0, Nat.not_le.1 h1, h2, Nat.not_le.1 h3⟩ h

theorem locked_leave {c : Mem} {caller : Principal} (h : Admitted c caller) : (c.locked caller).leave caller = c := by
  have : List.filter (fun x => x != caller) c.principals = c.principals := by
    rw [List.filter_eq_self]
    intro x hx
    simp only [bne_iff_ne, ne_eq]
    rintro rfl
    exact h.single hx
  unfold Mem.leave Mem.locked
  simp [this]

theorem destination_none {s : List Char} (h : ∀ a, ¬ Destination s a) : validateDestination s = none := by
  cases hv : validateDestination s with
  | none => rfl
  | some a => exact absurd (C44_destination.1 hv) (h a)

/-- **C58** (`withdraw_native_token`): what a call leads to, for every state of the canister and all arguments. -/
theorem C58_native [Keccak] (c : Mem) (now : Nat) (caller : Principal) (amount : Nat) (recipient : List Char) :
    (¬ Admitted c caller → Traps ((Message.withdrawNative caller amount recipient).run c now)) ∧
    (Admitted c caller →
      ((∀ a, ¬ Destination recipient a) →
        Sends c (.native (.error .invalidDestination)) ((Message.withdrawNative caller amount recipient).run c now)) ∧
      ∀ dest, Destination recipient dest →
        (2 ^ 256 ≤ amount → Traps ((Message.withdrawNative caller amount recipient).run c now)) ∧
        (amount < 2 ^ 256 → amount < c.m.st.nativeMinimumWithdrawalAmount →
          Sends c (.native (.error (.amountTooLow c.m.st.nativeMinimumWithdrawalAmount)))
            ((Message.withdrawNative caller amount recipient).run c now)) ∧
        (amount < 2 ^ 256 → c.m.st.nativeMinimumWithdrawalAmount ≤ amount →
          (c.m.st.withdrawalNativeFee = none →
            Calls (c.locked caller) (nativeBurnCall c caller amount dest) ((Message.withdrawNative caller amount recipient).run c now)) ∧
          ∀ fee, c.m.st.withdrawalNativeFee = some fee →
            (c.m.st.nativeLedgerTransferFee ≤ fee →
              Calls (c.locked caller) (withdrawalFeeCall c caller fee) ((Message.withdrawNative caller amount recipient).run c now)) ∧
            (fee < c.m.st.nativeLedgerTransferFee → Traps ((Message.withdrawNative caller amount recipient).run c now)))) := by
  refine ⟨fun h => ?_, fun h => ⟨fun hd => ?_, fun dest hd => ?_⟩⟩
  · obtain ⟨e, he⟩ := lockCaller_refused h
    exact ⟨e, by simp only [Message.run, Mem.startNative, he]; rfl⟩
  · simp only [Message.run, Mem.startNative, lockCaller_admitted h, Res.ok_bind, destination_none hd, Mem.nativeReturn, locked_leave h]
    rfl
  · have hv := C44_destination.2 hd
    have hc : ∀ {x : Res (Mem × Next)}, (Message.withdrawNative caller amount recipient).run c now = x ↔
        (do
          let amount ← expect (u256OfNat amount) "failed to convert Nat to u256"
          if amount < c.m.st.nativeMinimumWithdrawalAmount then
            return (c.locked caller).nativeReturn caller (.error (.amountTooLow c.m.st.nativeMinimumWithdrawalAmount))
          else
            let q : NativeCall := ⟨caller, amount, dest, c.m.st.withdrawalNativeFee, c.m.st.nativeLedgerTransferFee⟩
            match q.fee with
            | some fee =>
              let t ← expect (csub fee q.transferFee) "Failed to calculate withdrawal fee"
              return ((c.locked caller), .await (.ledger (.nativeFee q c.m.st.nativeLedgerId fee t)))
            | none => return (c.locked caller).nativeStartBurn q amount now) = x := by
      intro x
      simp only [Message.run, Mem.startNative, lockCaller_admitted h, Res.ok_bind, hv]
      rfl
    refine ⟨fun h1 => ?_, fun h1 h2 => ?_, fun h1 h2 => ⟨fun hf => ?_, fun fee hf => ⟨fun h3 => ?_, fun h3 => ?_⟩⟩⟩
    · exact ⟨_, hc.2 (by simp only [u256OfNat, if_neg (show ¬ amount < U256 from Nat.not_lt.2 h1), expect]; rfl)⟩
    · refine hc.2 ?_
      simp only [u256OfNat, if_pos (show amount < U256 from h1), expect, Res.ok_bind, if_pos h2, Mem.nativeReturn, locked_leave h]
      rfl
    · refine ⟨.nativeBurn ⟨caller, amount, dest, none, c.m.st.nativeLedgerTransferFee⟩ c.m.st.nativeLedgerId amount now, hc.2 ?_, rfl⟩
      simp only [u256OfNat, if_pos (show amount < U256 from h1), expect, Res.ok_bind, if_neg (Nat.not_lt.2 h2), hf, Mem.nativeStartBurn]
      rfl
    · refine ⟨.nativeFee ⟨caller, amount, dest, some fee, c.m.st.nativeLedgerTransferFee⟩ c.m.st.nativeLedgerId fee
        (fee - c.m.st.nativeLedgerTransferFee), hc.2 ?_, rfl⟩
      simp only [u256OfNat, if_pos (show amount < U256 from h1), expect, Res.ok_bind, if_neg (Nat.not_lt.2 h2), hf, csub, if_pos h3]
      rfl
    · exact ⟨_, hc.2 (by
        simp only [u256OfNat, if_pos (show amount < U256 from h1), expect, Res.ok_bind, if_neg (Nat.not_lt.2 h2), hf, csub,
          if_neg (Nat.not_le.2 h3)]
        rfl)⟩

theorem onErc20Gas_charges {c : Mem} {q : Erc20Call} {g : GasFeeEstimate} {now : Nat} (hl : q.nativeLedger = c.m.st.nativeLedgerId)
    (ht : q.transferFee = c.m.st.nativeLedgerTransferFee) :
    Charges c q.caller (g.toPrice erc20GasLimit).maxTransactionFee q.amount q.token.symbol q.destination (c.onErc20Gas q (some g) now) := by
  refine ⟨fun hf => ?_, fun fee hf => ⟨fun h3 => ?_, fun h3 => ?_⟩⟩
  · refine ⟨.erc20NativeBurn ⟨q, (g.toPrice erc20GasLimit).maxTransactionFee, none⟩ now, ?_, ?_⟩
    · simp only [Mem.onErc20Gas, hf]; rfl
    · simp only [LedgerTask.call, txFeeBurnCall, hl]
  · refine ⟨.erc20Fee ⟨q, (g.toPrice erc20GasLimit).maxTransactionFee, some fee⟩ (fee - c.m.st.nativeLedgerTransferFee), ?_, ?_⟩
    · simp only [Mem.onErc20Gas, hf, ht, csub, if_pos h3, expect, Res.ok_bind]; rfl
    · simp only [LedgerTask.call, withdrawalFeeCall, hl]
  · exact ⟨_, by simp only [Mem.onErc20Gas, hf, ht, csub, if_neg (Nat.not_le.2 h3), expect]; rfl⟩

/-- **C58** (`withdraw_erc20`): what a call leads to. Without a recent estimate of the fees it waits for one, unless another
message is already asking for it. -/
theorem C58_erc20 [Keccak] (c : Mem) (now : Nat) (caller : Principal) (amount : Nat) (ledger : Principal) (recipient : List Char)
    (cached : Option GasFeeEstimate) :
    (¬ Admitted c caller → Traps ((Message.withdrawErc20 caller amount ledger recipient cached).run c now)) ∧
    (Admitted c caller →
      ((∀ a, ¬ Destination recipient a) →
        Sends c (.erc20 (.error .invalidDestination)) ((Message.withdrawErc20 caller amount ledger recipient cached).run c now)) ∧
      ∀ dest, Destination recipient dest →
        (2 ^ 256 ≤ amount → Traps ((Message.withdrawErc20 caller amount ledger recipient cached).run c now)) ∧
        (amount < 2 ^ 256 → c.m.st.erc20Tokens.getEntry ledger = none →
          Sends c (.erc20 (.error .tokenNotSupported)) ((Message.withdrawErc20 caller amount ledger recipient cached).run c now)) ∧
        (amount < 2 ^ 256 → ∀ address symbol, c.m.st.erc20Tokens.getEntry ledger = some (address, symbol) →
          (∀ g, cached = some g →
            Charges (c.locked caller) caller (g.toPrice erc20GasLimit).maxTransactionFee amount symbol dest
              ((Message.withdrawErc20 caller amount ledger recipient cached).run c now)) ∧
          (cached = none → .refreshGasFeeEstimate ∈ c.active →
            Sends c (.erc20 (.error .temporarilyUnavailable)) ((Message.withdrawErc20 caller amount ledger recipient cached).run c now)) ∧
          (cached = none → .refreshGasFeeEstimate ∉ c.active →
            (Message.withdrawErc20 caller amount ledger recipient cached).run c now =
              .ok ({ c.locked caller with active := .refreshGasFeeEstimate :: c.active },
                .await (.ext (.erc20Gas ⟨caller, amount, dest, ⟨c.m.st.evmNetwork, address, symbol, ledger⟩,
                  c.m.st.nativeLedgerTransferFee, c.m.st.nativeLedgerId⟩)))))) := by
  refine ⟨fun h => ?_, fun h => ⟨fun hd => ?_, fun dest hd => ?_⟩⟩
  · obtain ⟨e, he⟩ := lockCaller_refused h
    exact ⟨e, by simp only [Message.run, Mem.startErc20, he]; rfl⟩
  · simp only [Message.run, Mem.startErc20, lockCaller_admitted h, Res.ok_bind, destination_none hd, Mem.erc20Return, locked_leave h]
    rfl
  · have hv := C44_destination.2 hd
    refine ⟨fun h1 => ?_, fun h1 h2 => ?_, fun h1 address symbol h2 => ⟨fun g hg => ?_, fun hc ha => ?_, fun hc ha => ?_⟩⟩
    · exact ⟨_, by simp only [Message.run, Mem.startErc20, lockCaller_admitted h, Res.ok_bind, hv, u256OfNat,
        if_neg (show ¬ amount < U256 from Nat.not_lt.2 h1), expect]; rfl⟩
    · have h2 : (c.locked caller).m.st.findErc20TokenByLedgerId ledger = none := by
        simp only [State.findErc20TokenByLedgerId, Option.map_eq_none_iff]; exact h2
      simp only [Message.run, Mem.startErc20, lockCaller_admitted h, Res.ok_bind, hv, u256OfNat,
        if_pos (show amount < U256 from h1), expect, h2, Mem.erc20Return, locked_leave h]
      rfl
    all_goals
      have h2 : (c.locked caller).m.st.findErc20TokenByLedgerId ledger = some ⟨c.m.st.evmNetwork, address, symbol, ledger⟩ := by
        simp only [State.findErc20TokenByLedgerId, Option.map_eq_some_iff]; exact ⟨_, h2, rfl⟩
      subst_vars
      simp only [Message.run, Mem.startErc20, lockCaller_admitted h, Res.ok_bind, hv, u256OfNat,
        if_pos (show amount < U256 from h1), expect, h2]
    · exact onErc20Gas_charges (q := ⟨caller, amount, dest, ⟨c.m.st.evmNetwork, address, symbol, ledger⟩, _, _⟩) rfl rfl
    · have hq : (c.locked caller).acquire .refreshGasFeeEstimate = none := if_pos ha
      simp only [hq, Mem.onErc20Gas, Mem.erc20Return, locked_leave h]
      rfl
    · have hq : (c.locked caller).acquire .refreshGasFeeEstimate = some { c.locked caller with active := .refreshGasFeeEstimate :: c.active } :=
        if_neg ha
      simp only [hq]
      rfl

/-- **C58** (`withdraw_erc20`, continued): what the estimate leads to. -/
theorem C58_estimate [Keccak] (c : Mem) (now : Nat) (q : Erc20Call) (hl : q.nativeLedger = c.m.st.nativeLedgerId)
    (ht : q.transferFee = c.m.st.nativeLedgerTransferFee) :
    (ExtTask.erc20Gas q).resume c now (.gas none) =
      some (.ok ((c.release .refreshGasFeeEstimate).leave q.caller, .finish (some (.erc20 (.error .temporarilyUnavailable))))) ∧
    ∀ g, ∃ x, (ExtTask.erc20Gas q).resume c now (.gas (some g)) = some x ∧
      Charges (c.release .refreshGasFeeEstimate) q.caller (g.toPrice erc20GasLimit).maxTransactionFee q.amount q.token.symbol q.destination x :=
  ⟨rfl, fun _ => ⟨_, rfl, onErc20Gas_charges hl ht⟩⟩

namespace Example
attribute [local instance] keccak

/-- The minimum is 1000000000: a withdrawal of that amount is let in, one of less is not. -/
theorem C58_example : ∃ w, Reachable w ∧ decide (
    w.mem.m.st.nativeMinimumWithdrawalAmount = 1000000000 ∧
    (w.finished.map (·.2) = [.replied (some (.native (.error (.amountTooLow 1000000000)))),
      .replied (some (.native (.error .invalidDestination))),
      .replied (some (.erc20 (.error .tokenNotSupported))), .trapped]) ∧
    w.tasks.map (fun p => match p.task with | .ledger t => some (t.call minter).op | _ => none) =
      [some (.transfer ⟨alice, none⟩ ⟨minter, some feesSubaccount⟩ 90)]) = true :=
  after_reachable (arg := initArg) (l := [.start (.withdrawNative alice 999999999 "0x000000000000000000000000000000000000beef".toList) 5,
    .start (.withdrawNative alice 1000000000 "0x0000000000000000000000000000000000000000".toList) 5,
    .start (.withdrawErc20 alice 5 alice "0x000000000000000000000000000000000000beef".toList none) 5,
    .start (.withdrawNative alice 1000000000 "0x000000000000000000000000000000000000beef".toList) 5,
    .start (.withdrawNative alice 1000000000 "0x000000000000000000000000000000000000beef".toList) 6]) (by decide +kernel)

end Example
end EvmMinter
