import Verif.Props.C30
import Verif.Props.C38
import Verif.Spec.Charge
/-!
# C85: nobody is charged without asking, nor more than they asked for
-/

namespace EvmMinter
open Spec

section
variable [Keccak]

/-- However far a message got: it called no ledger, or it had made the same blocks when it last waited. -/
theorem Thread.waited {W : World} {id : Nat} {msg : Message} {bl : List Block} {ev : List Event} {st : Progress}
    (h : Thread W id msg bl ev st) : bl = [] ∨ ∃ ev' t a, Thread W id msg bl ev' (.waiting t a) := by
  cases h with
  | start w now c n hb ha ht hr => exact .inl rfl
  | startTrap => exact .inl rfl
  | execute w bl ev t hT hb hm hh h0 h1 => exact .inr ⟨_, _, _, .execute w bl ev t hT hb hm hh h0 h1⟩
  | refuse w bl ev t e hT hb hm hr => exact .inr ⟨_, _, _, hT⟩
  | reject w bl ev t hT => exact .inr ⟨_, _, _, hT⟩
  | deliver w bl ev t a now c n hT => exact .inr ⟨_, _, _, hT⟩
  | deliverTrap w bl ev t a now e c hT => exact .inr ⟨_, _, _, hT⟩
  | kill w bl ev t a c hT => exact .inr ⟨_, _, _, hT⟩
  | answer w bl ev t o a now c n hT => exact .inr ⟨_, _, _, hT⟩
  | answerTrap w bl ev t o a now e c hT => exact .inr ⟨_, _, _, hT⟩
  | killExt w bl ev t o c hT => exact .inr ⟨_, _, _, hT⟩

theorem Thread.arrived {W : World} {id : Nat} {msg : Message} {bl : List Block} {ev : List Event} {st : Progress}
    (h : Thread W id msg bl ev st) : ∃ w₀, Arrived w₀ W id := by
  induction h with
  | start w now c n hb ha ht hr => exact ⟨w, ha⟩
  | startTrap w now e hb ha => exact ⟨w, ha⟩
  | _ => assumption

omit [Keccak] in
theorem ownBlock_cases (W : World) (id : Nat) (t : LedgerTask) (a : Option LedgerAnswer) :
    ownBlock W id t a = [] ∨ ownBlock W id t a = [blk W id t] := by
  unfold ownBlock
  split <;> simp

/-! ## `withdraw_native_token` -/

/-- **C85** (native withdrawals): at any time, and however a call of `withdraw_native_token` ended, the ledgers have executed for it
at most the transfer of the withdrawal fee configured when it arrived, and then either the burn of the rest of the amount, or the
refund of the fee. All of this is between the caller and the fee account, on the native ledger, and happens only if the withdrawal fee
covers that of the ledger. -/
theorem C85_native {w : World} (h : Reachable w) {id : Nat} {caller : Principal} {amount : Nat} {recipient : List Char}
    (hs : (id, .withdrawNative caller amount recipient) ∈ w.started) :
    ∃ w₀, Arrived w₀ w id ∧
      (w.callsOf id ≠ [] → ∀ fee, w₀.mem.m.st.withdrawalNativeFee = some fee → w₀.mem.m.st.nativeLedgerTransferFee ≤ fee) ∧
      (w.callsOf id <+: w₀.feeTaken w caller ∨
        (w₀.mem.m.st.withdrawalNativeFee.getD 0 ≤ amount ∧ w.callsOf id = w₀.feeTaken w caller ++
          [(w.mem.m.st.nativeLedgerId, .burn ⟨caller, none⟩ (amount - w₀.mem.m.st.withdrawalNativeFee.getD 0))]) ∨
        w.callsOf id = w₀.feeTaken w caller ++ w₀.feeRefunded w caller) := by
  obtain ⟨st, hT, -⟩ := thread h hs
  rcases hT.waited with h0 | ⟨ev, t, a, hT'⟩
  · obtain ⟨w₀, ha⟩ := hT.arrived
    exact ⟨w₀, ha, fun h1 => absurd (by simp [World.callsOf, h0]) h1, .inl (by simp [World.callsOf, h0])⟩
  · have hn := hT'.native
    cases t with
    | ext t => exact hn.elim
    | ledger t =>
      obtain ⟨-, bl, hbl, hn⟩ := hn
      unfold World.callsOf World.feeTaken World.feeRefunded
      rw [hbl]
      cases t <;> try exact hn.elim
      case nativeFee q l fee t =>
        obtain ⟨hq, rfl, hf, hft, rfl⟩ := hn
        obtain ⟨w₀, ha, hfee, htf⟩ := hq.config
        refine ⟨w₀, ha, fun _ fee' h' => ?_, .inl ?_⟩
        · rw [htf]; cases hf.symm.trans (hfee.symm.trans h'); rw [hft]; exact Nat.le_add_left _ _
        rw [hfee, hf, htf]
        have : fee - q.transferFee = t := by rw [hft]; womega
        rcases ownBlock_cases w id (.nativeFee q w.mem.m.st.nativeLedgerId fee t) a with h1 | h1 <;> rw [h1] <;>
          simp [blk, LedgerTask.call, hq.caller_eq, this]
      case nativeBurn q l am now =>
        obtain ⟨hq, rfl, hp⟩ := hn
        obtain ⟨w₀, ha, hfee, htf⟩ := hq.config
        refine ⟨w₀, ha, fun _ fee' h' => ?_, ?_⟩
        · rw [htf]
          rcases hp with ⟨hf, -⟩ | ⟨fee, t, hf, -, hft, -⟩
          · cases hf.symm.trans (hfee.symm.trans h')
          · cases hf.symm.trans (hfee.symm.trans h'); rw [hft]; exact Nat.le_add_left _ _
        rw [hfee, htf]
        have hc := hq.caller_eq
        have hm := hq.amount_eq
        rcases hp with ⟨hf, rfl, rfl⟩ | ⟨fee, t, hf, hm', hft, rfl⟩
        · rw [hf]
          rcases ownBlock_cases w id (.nativeBurn q w.mem.m.st.nativeLedgerId q.amount now) a with h1 | h1 <;> rw [h1]
          · exact .inl (by simp)
          · exact .inr (.inl (by simp [blk, LedgerTask.call, hc, hm]))
        · rw [hf]
          have e1 : fee - q.transferFee = t := by rw [hft]; womega
          have e2 : amount - fee = am := by rw [← hm, hm']; womega
          have e3 : fee ≤ amount := by rw [← hm, hm']; womega
          rcases ownBlock_cases w id (.nativeBurn q w.mem.m.st.nativeLedgerId am now) a with h1 | h1 <;> rw [h1]
          · exact .inl (by simp [blk, LedgerTask.call, hc, e1])
          · exact .inr (.inl (by simp [blk, LedgerTask.call, hc, e1, e2, e3]))
      case nativeRefund q l am e =>
        obtain ⟨hq, rfl, fee, t, hf, hft, rfl, rfl⟩ := hn
        obtain ⟨w₀, ha, hfee, htf⟩ := hq.config
        refine ⟨w₀, ha, fun _ fee' h' => ?_, ?_⟩
        · rw [htf]; cases hf.symm.trans (hfee.symm.trans h'); rw [hft]; exact Nat.le_add_left _ _
        have hc := hq.caller_eq
        have hb' := ((config_valid (tracks ha.reachable)).withdrawal fee (hfee.trans hf)).2
        rw [hfee, htf, hf]
        have e1 : fee - q.transferFee = t := by rw [hft]; womega
        have e2 := refundAmount_eq (transferFee := q.transferFee) hb'
        rcases ownBlock_cases w id (.nativeRefund q w.mem.m.st.nativeLedgerId (refundAmount fee q.transferFee) e) a with h1 | h1 <;> rw [h1]
        · exact .inl (by simp [blk, LedgerTask.call, hc, e1])
        · exact .inr (.inr (by simp [blk, LedgerTask.call, hc, e1, e2]))

/-! ## `withdraw_erc20` -/

omit [Keccak] in
theorem maxFeeAt_eq (g : GasFeeEstimate) :
    (g.toPrice erc20GasLimit).maxTransactionFee = maxFeeAt g.baseFeePerGas g.maxPriorityFeePerGas := by
  have cost : ∀ a b : Nat, (transactionCost a b).getD u256Max = min (b * a) (2 ^ 256 - 1) := by
    intro a b
    unfold transactionCost cmul
    rw [Nat.mul_comm]
    split
    · rename_i h
      unfold U256 at h
      simp only [Option.getD_some]
      womega
    · rename_i h
      unfold U256 at h
      simp only [Option.getD_none, u256Max]
      womega
  unfold maxFeeAt
  rw [← C38_max_fee]
  exact cost _ _

/-- **C85** (ERC-20 withdrawals): at any time, and however a call of `withdraw_erc20` ended, the ledgers have executed for it a
beginning of: the transfer of the withdrawal fee configured when it arrived, the burn of the transaction fee at a valid estimate,
the burn of the requested amount of tokens. Or they executed the first one or two of these, and then the refund of the withdrawal
fee. The withdrawal fee covers that of the ledger if anything was executed. -/
theorem C85_erc20 {w : World} (h : Reachable w) {id : Nat} {caller : Principal} {amount : Nat} {ledger : Principal}
    {recipient : List Char} {cached : Option GasFeeEstimate}
    (hs : (id, .withdrawErc20 caller amount ledger recipient cached) ∈ w.started) :
    ∃ (w₀ : World) (g : GasFeeEstimate), Arrived w₀ w id ∧ g.Bounded ∧
      (w.callsOf id ≠ [] → ∀ fee, w₀.mem.m.st.withdrawalNativeFee = some fee → w₀.mem.m.st.nativeLedgerTransferFee ≤ fee) ∧
      (w.callsOf id <+: w₀.feeTaken w caller ++
          [(w.mem.m.st.nativeLedgerId, .burn ⟨caller, none⟩ (maxFeeAt g.baseFeePerGas g.maxPriorityFeePerGas)),
            (ledger, .burn ⟨caller, none⟩ amount)] ∨
        w.callsOf id = w₀.feeTaken w caller ++ w₀.feeRefunded w caller ∨
        w.callsOf id = w₀.feeTaken w caller ++
          [(w.mem.m.st.nativeLedgerId, .burn ⟨caller, none⟩ (maxFeeAt g.baseFeePerGas g.maxPriorityFeePerGas))] ++
          w₀.feeRefunded w caller) := by
  obtain ⟨st, hT, -⟩ := thread h hs
  by_cases h0 : w.blocksOf id = []
  · obtain ⟨w₀, ha⟩ := hT.arrived
    exact ⟨w₀, ⟨0, 0⟩, ha, by decide, fun h1 => absurd (by simp [World.callsOf, h0]) h1, .inl (by simp [World.callsOf, h0])⟩
  rcases hT.waited with h1 | ⟨ev, t, a, hT'⟩
  · exact absurd h1 h0
  · have hn := hT'.erc20
    cases t with
    | ext t =>
      cases t <;> try exact hn.elim
      exact absurd hn.2.1 h0
    | ledger t =>
      obtain ⟨bl, hbl, hn⟩ := hn
      have key : ∀ {q : Erc20Charged}, q.Of w id caller amount ledger recipient →
          ∃ (w₀ : World) (g : GasFeeEstimate), Arrived w₀ w id ∧ g.Bounded ∧ w₀.mem.m.st.nativeLedgerTransferFee = q.transferFee ∧
            w₀.mem.m.st.withdrawalNativeFee = q.fee ∧ q.txFee = maxFeeAt g.baseFeePerGas g.maxPriorityFeePerGas ∧
            q.token.erc20LedgerId = ledger ∧ (∀ {bl : List Block}, q.Paid w id bl →
              bl.map (fun b => (b.call.ledger, b.call.op)) = w₀.feeTaken w caller ∧
              ∀ fee, w₀.mem.m.st.withdrawalNativeFee = some fee → w₀.mem.m.st.nativeLedgerTransferFee ≤ fee) ∧
            ∀ fee e, q.fee = some fee → [blk w id (.erc20Refund q (refundAmount fee q.transferFee) e)].map
              (fun b => (b.call.ledger, b.call.op)) = w₀.feeRefunded w caller := by
        intro q hq
        obtain ⟨w₀, g, ha, -, htf, hfee, hg, htx⟩ := hq.config
        obtain ⟨_, _, htok', _⟩ := hq.call.config
        have hl : q.token.erc20LedgerId = ledger := by
          simp only [State.findErc20TokenByLedgerId, Option.map_eq_some_iff] at htok'
          obtain ⟨x, _, hx⟩ := htok'
          rw [← hx]
        refine ⟨w₀, g, ha, hg, htf, hfee, htx.trans (maxFeeAt_eq g), hl,
          fun hp => ⟨hp.feeTaken hq.call.caller_eq hq.call.ledger_eq hfee htf, fun fee' h' => ?_⟩, ?_⟩
        · rw [htf]
          rcases hp with ⟨hf, -⟩ | ⟨fee, t, hf, hft, -⟩
          · cases hf.symm.trans (hfee.symm.trans h')
          · cases hf.symm.trans (hfee.symm.trans h'); rw [hft]; exact Nat.le_add_left _ _
        intro fee e hf
        have hlt := ((config_valid (tracks ha.reachable)).withdrawal fee (hfee.trans hf)).2
        simp [World.feeRefunded, hfee, hf, htf, blk, LedgerTask.call, hq.call.caller_eq, hq.call.ledger_eq, refundAmount_eq hlt]
      unfold World.callsOf
      rw [hbl]
      cases t <;> try exact hn.elim
      case erc20Fee q t =>
        obtain ⟨hq, -, rfl, fee, hf, hft⟩ := hn
        obtain ⟨w₀, g, ha, hg, htf, hfee, htx, hl, hp, hr⟩ := key hq
        refine ⟨w₀, g, ha, hg, fun _ => (hp (.inr ⟨fee, t, hf, hft, rfl⟩)).2, .inl ?_⟩
        rcases ownBlock_cases w id (.erc20Fee q t) a with h1 | h1 <;> rw [h1]
        · simp
        · rw [List.nil_append, (hp (.inr ⟨fee, t, hf, hft, rfl⟩)).1]
          exact List.prefix_append _ _
      case erc20NativeBurn q now =>
        obtain ⟨hq, -, hpd⟩ := hn
        obtain ⟨w₀, g, ha, hg, htf, hfee, htx, hl, hp, hr⟩ := key hq
        refine ⟨w₀, g, ha, hg, fun _ => (hp hpd).2, .inl ?_⟩
        rw [List.map_append, (hp hpd).1]
        rcases ownBlock_cases w id (.erc20NativeBurn q now) a with h1 | h1 <;> rw [h1] <;>
          simp [List.prefix_append_right_inj, blk, LedgerTask.call, hq.call.caller_eq, hq.call.ledger_eq, htx]
      case erc20TokenBurn q now ni =>
        obtain ⟨hq, -, bl', hpd, rfl, -⟩ := hn
        obtain ⟨w₀, g, ha, hg, htf, hfee, htx, hl, hp, hr⟩ := key hq
        refine ⟨w₀, g, ha, hg, fun _ => (hp hpd).2, .inl ?_⟩
        rw [List.map_append, List.map_append, (hp hpd).1, List.append_assoc]
        rcases ownBlock_cases w id (.erc20TokenBurn q now ni) a with h1 | h1 <;> rw [h1] <;>
          simp [List.prefix_append_right_inj, blk, LedgerTask.call, hq.call.caller_eq, hq.call.ledger_eq, hq.call.amount_eq, htx, hl]
      case erc20Refund q am e =>
        obtain ⟨hq, ⟨fee, hf, rfl⟩, haf⟩ := hn
        obtain ⟨w₀, g, ha, hg, htf, hfee, htx, hl, hp, hr⟩ := key hq
        refine ⟨w₀, g, ha, hg, fun _ => ?_, ?_⟩
        · rcases haf with ⟨hpd, -, -⟩ | ⟨now, ni, le, ⟨bl', hpd, rfl, -⟩, -, -⟩ <;> exact (hp hpd).2
        rw [List.map_append]
        rcases haf with ⟨hpd, -, -⟩ | ⟨now, ni, le, ⟨bl', hpd, rfl, -⟩, -, -⟩
        · rw [(hp hpd).1]
          rcases ownBlock_cases w id (.erc20Refund q (refundAmount fee q.transferFee) e) a with h1 | h1 <;> rw [h1]
          · exact .inl (by simp)
          · exact .inr (.inl (by rw [hr fee e hf]))
        · rw [List.map_append, (hp hpd).1]
          rcases ownBlock_cases w id (.erc20Refund q (refundAmount fee q.transferFee) e) a with h1 | h1 <;> rw [h1]
          · exact .inl (by simp [List.prefix_append_right_inj, blk, LedgerTask.call, hq.call.caller_eq, hq.call.ledger_eq, htx])
          · refine .inr (.inr ?_)
            rw [hr fee e hf]
            simp [blk, LedgerTask.call, hq.call.caller_eq, hq.call.ledger_eq, htx]

/-! ## Amounts -/

/-- What a list of transactions takes from an account of ledger `l`. -/
def charge (l : Principal) (who : Account) (f : Nat) (cs : List (Principal × LedgerOp)) : Nat :=
  ((cs.filter fun c => c.1 == l).map fun c => c.2.debit who f).sum

omit [Keccak] in
theorem charge_append (l : Principal) (who : Account) (f : Nat) (cs ds : List (Principal × LedgerOp)) :
    charge l who f (cs ++ ds) = charge l who f cs + charge l who f ds := by
  simp [charge]

omit [Keccak] in
theorem charge_cons (l : Principal) (who : Account) (f : Nat) (c : Principal × LedgerOp) (ds : List (Principal × LedgerOp)) :
    charge l who f (c :: ds) = (if c.1 = l then c.2.debit who f else 0) + charge l who f ds := by
  unfold charge
  rw [List.filter_cons]
  by_cases h : c.1 = l <;> simp [h]

omit [Keccak] in
theorem charge_prefix {l : Principal} {who : Account} {f : Nat} {cs ds : List (Principal × LedgerOp)} (h : cs <+: ds) :
    charge l who f cs ≤ charge l who f ds := by
  obtain ⟨r, rfl⟩ := h
  rw [charge_append]
  exact Nat.le_add_right _ _

omit [Keccak] in
theorem charge_feeTaken {w₀ w : World}
    (h : ∀ fee, w₀.mem.m.st.withdrawalNativeFee = some fee → w₀.mem.m.st.nativeLedgerTransferFee ≤ fee) (caller : Principal) (l : Principal) :
    charge l ⟨caller, none⟩ w₀.mem.m.st.nativeLedgerTransferFee (w₀.feeTaken w caller) =
      if l = w.mem.m.st.nativeLedgerId then w₀.mem.m.st.withdrawalNativeFee.getD 0 else 0 := by
  unfold World.feeTaken
  cases hf : w₀.mem.m.st.withdrawalNativeFee with
  | none => simp [charge]
  | some fee =>
    have hv := h fee hf
    simp only [charge_cons, LedgerOp.debit, if_true, Option.getD_some, eq_comm (a := l)]
    have : fee - w₀.mem.m.st.nativeLedgerTransferFee + w₀.mem.m.st.nativeLedgerTransferFee = fee := by womega
    rw [this]
    simp [charge]

omit [Keccak] in
theorem charge_feeRefunded (w₀ w : World) (caller : Principal) (l : Principal) (f : Nat) :
    charge l ⟨caller, none⟩ f (w₀.feeRefunded w caller) = 0 := by
  unfold World.feeRefunded
  cases w₀.mem.m.st.withdrawalNativeFee <;> simp [charge_cons, LedgerOp.debit] <;> rfl

/-- **C85** (native withdrawals): what a call takes from its caller is nothing, exactly the withdrawal fee, or exactly the amount of
the call, and it is taken on the native ledger only. -/
theorem C85_native_amount {w : World} (h : Reachable w) {id : Nat} {caller : Principal} {amount : Nat} {recipient : List Char}
    (hs : (id, .withdrawNative caller amount recipient) ∈ w.started) :
    ∃ w₀, Arrived w₀ w id ∧ ∀ l,
      w.taken id l ⟨caller, none⟩ w₀.mem.m.st.nativeLedgerTransferFee = 0 ∨
      (l = w.mem.m.st.nativeLedgerId ∧
        (w.taken id l ⟨caller, none⟩ w₀.mem.m.st.nativeLedgerTransferFee = w₀.mem.m.st.withdrawalNativeFee.getD 0 ∨
          w.taken id l ⟨caller, none⟩ w₀.mem.m.st.nativeLedgerTransferFee = amount)) := by
  obtain ⟨w₀, ha, hcov, hx⟩ := C85_native h hs
  refine ⟨w₀, ha, fun l => ?_⟩
  have ht : ∀ who f, w.taken id l who f = charge l who f (w.callsOf id) := fun _ _ => rfl
  rw [ht]
  by_cases h0 : w.callsOf id = []
  · exact .inl (by rw [h0]; rfl)
  have c0 := charge_feeTaken (w := w) (hcov h0) caller l
  by_cases hl : l = w.mem.m.st.nativeLedgerId
  · rw [if_pos hl] at c0
    rcases hx with hx | ⟨hle, hx⟩ | hx
    · rcases hx with ⟨r, hr⟩
      cases hc : w.callsOf id with
      | nil => exact .inl rfl
      | cons x xs =>
        right
        refine ⟨hl, .inl ?_⟩
        rw [← c0, ← hr]
        have : r = [] ∧ xs = [] := by
          have hlen : (w₀.feeTaken w caller).length ≤ 1 := by unfold World.feeTaken; split <;> simp
          rw [← hr, hc, List.length_append, List.length_cons] at hlen
          exact ⟨List.eq_nil_of_length_eq_zero (by omega), List.eq_nil_of_length_eq_zero (by omega)⟩
        rw [this.1, List.append_nil, hc]
    · refine .inr ⟨hl, .inr ?_⟩
      rw [hx, charge_append, c0, charge_cons, if_pos hl.symm]
      simp only [LedgerOp.debit, if_true, charge, List.filter_nil, List.map_nil, List.sum_nil]
      womega
    · refine .inr ⟨hl, .inl ?_⟩
      rw [hx, charge_append, charge_feeRefunded, c0, Nat.add_zero]
  · rw [if_neg hl] at c0
    left
    rcases hx with hx | ⟨-, hx⟩ | hx
    · exact Nat.le_zero.1 (c0 ▸ charge_prefix hx)
    · rw [hx, charge_append, c0, charge_cons, if_neg (Ne.symm hl)]
      rfl
    · rw [hx, charge_append, charge_feeRefunded, c0]

/-- **C85** (ERC-20 withdrawals): a call takes from its caller at most the withdrawal fee and the maximal fee of a transaction at
a valid estimate, on the native ledger, and at most its amount on the ledger of the token; elsewhere nothing. -/
theorem C85_erc20_amount {w : World} (h : Reachable w) {id : Nat} {caller : Principal} {amount : Nat} {ledger : Principal}
    {recipient : List Char} {cached : Option GasFeeEstimate}
    (hs : (id, .withdrawErc20 caller amount ledger recipient cached) ∈ w.started) :
    ∃ (w₀ : World) (g : GasFeeEstimate), Arrived w₀ w id ∧ g.Bounded ∧ ∀ l,
      w.taken id l ⟨caller, none⟩ w₀.mem.m.st.nativeLedgerTransferFee ≤
        (if l = w.mem.m.st.nativeLedgerId then
          w₀.mem.m.st.withdrawalNativeFee.getD 0 + maxFeeAt g.baseFeePerGas g.maxPriorityFeePerGas else 0) +
        (if l = ledger then amount else 0) := by
  obtain ⟨w₀, g, ha, hg, hcov, hx⟩ := C85_erc20 h hs
  refine ⟨w₀, g, ha, hg, fun l => ?_⟩
  have ht : ∀ who f, w.taken id l who f = charge l who f (w.callsOf id) := fun _ _ => rfl
  rw [ht]
  by_cases h0 : w.callsOf id = []
  · rw [h0]; exact Nat.zero_le _
  have c0 := charge_feeTaken (w := w) (hcov h0) caller l
  have nil : ∀ who f, charge l who f [] = 0 := fun _ _ => rfl
  have full : charge l ⟨caller, none⟩ w₀.mem.m.st.nativeLedgerTransferFee (w₀.feeTaken w caller ++
          [(w.mem.m.st.nativeLedgerId, .burn ⟨caller, none⟩ (maxFeeAt g.baseFeePerGas g.maxPriorityFeePerGas)),
            (ledger, .burn ⟨caller, none⟩ amount)]) ≤
        (if l = w.mem.m.st.nativeLedgerId then
          w₀.mem.m.st.withdrawalNativeFee.getD 0 + maxFeeAt g.baseFeePerGas g.maxPriorityFeePerGas else 0) +
        (if l = ledger then amount else 0) := by
    rw [charge_append, c0, charge_cons, charge_cons, nil]
    simp only [LedgerOp.debit, if_true, eq_comm (b := l)]
    generalize maxFeeAt _ _ = m
    split <;> split <;> womega
  refine Nat.le_trans ?_ full
  rcases hx with hx | hx | hx
  · exact charge_prefix hx
  · rw [hx, charge_append, charge_append, charge_feeRefunded]
    exact Nat.le_add_right _ _
  · rw [hx, charge_append, charge_feeRefunded, Nat.add_zero]
    refine charge_prefix ⟨[(ledger, .burn ⟨caller, none⟩ amount)], ?_⟩
    simp

/-! ## All other messages, and all blocks -/

theorem run_caller_none {c c' : Mem} {msg : Message} {now : Nat} {n : Next} (hp : msg.payer = none) (h : msg.run c now = .ok (c', n)) :
    n.caller = none := by
  have of : ∀ {c c' : Mem} {run run' : List TaskType}, Locks c c' run run' none n.caller → n.caller = none := by
    intro c c' run run' L
    cases hn : n.caller with
    | none => rfl
    | some x => cases L.caller x hn
  cases msg with
  | mint =>
    simp only [Message.run, Mem.startMint] at h
    split at h
    · cases h; rfl
    · exact of (Mem.mintLoop_locks h)
  | reimbursement =>
    simp only [Message.run, Mem.startReimbursement] at h
    split at h
    · cases h; rfl
    · exact of (Mem.reimburseLoop_locks h)
  | retrieve cached =>
    simp only [Message.run, Mem.startRetrieve] at h
    split at h
    · cases h; rfl
    · split at h
      · exact of (Locks.of_eq (Mem.retrieveEnd_locks _) (Except.ok.inj h))
      · split at h
        · exact of (Locks.of_eq (Mem.onRetrieveGas_locks _ _) (Except.ok.inj h))
        · split at h
          · exact of (Locks.of_eq (Mem.onRetrieveGas_locks _ _) (Except.ok.inj h))
          · cases h; rfl
  | scrape =>
    simp only [Message.run] at h
    split at h <;> cases h <;> rfl
  | gas =>
    simp only [Message.run] at h
    split at h <;> cases h <;> rfl
  | withdrawNative caller amount recipient => cases hp
  | withdrawErc20 caller amount ledger recipient cached => cases hp
  | addToken caller arg =>
    simp only [Message.run, Res.bind_ok] at h
    obtain ⟨x, _, h⟩ := h
    cases h; rfl

theorem Thread.mints {W : World} {id : Nat} {msg : Message} {bl : List Block} {ev : List Event} {st : Progress} (hp : msg.payer = none)
    (h : Thread W id msg bl ev st) :
    (∀ b ∈ bl, ∃ a n, b.call.op = .mint a n) ∧ ∀ t a, st = .waiting t a → t.caller = none := by
  have next : ∀ {n : Next}, n.caller = none → ∀ t a, n.status = .waiting t a → t.caller = none := by
    intro n hn t a h
    cases n with
    | finish r => cases h
    | await t' => cases h; exact hn
  have keep : ∀ {c c' : Mem} {run run' : List TaskType} {p : Option Principal} {n : Next}, p = none → Locks c c' run run' p n.caller →
      n.caller = none := by
    intro c c' run run' p n hp L
    cases hn : n.caller with
    | none => rfl
    | some x => rw [L.caller x hn] at hp; cases hp
  induction h with
  | start w now c n hb ha ht hr => exact ⟨by simp, next (run_caller_none hp hr)⟩
  | startTrap w now e hb ha => exact ⟨by simp, fun _ _ h => by cases h⟩
  | execute w bl ev t hT hb hm hh h0 h1 ih =>
    have hc := ih.2 _ _ rfl
    refine ⟨?_, fun t' a h => by cases h; exact hc⟩
    intro b hb
    rcases List.mem_append.1 hb with hb | hb
    · exact ih.1 b hb
    · rw [List.mem_singleton.1 hb]
      cases t <;> first | exact ⟨_, _, rfl⟩ | (simp [Task.caller] at hc)
  | refuse w bl ev t e hT hb hm hr ih => exact ⟨ih.1, fun _ _ h => by cases h; exact ih.2 _ _ rfl⟩
  | reject w bl ev t hT hb hm ih => exact ⟨ih.1, fun _ _ h => by cases h; exact ih.2 _ _ rfl⟩
  | deliver w bl ev t a now c n hT hb hm hr ih => exact ⟨ih.1, next (keep (ih.2 _ _ rfl) (LedgerTask.resume_locks hr))⟩
  | deliverTrap w bl ev t a now e c hT hb hm hr hc ih => exact ⟨ih.1, fun _ _ h => by cases h⟩
  | kill w bl ev t a c hT hb hm hc ih => exact ⟨ih.1, fun _ _ h => by cases h⟩
  | answer w bl ev t o a now c n hT hb hm ht hr ih => exact ⟨ih.1, next (keep (ih.2 _ _ rfl) (ExtTask.resume_locks hr))⟩
  | answerTrap w bl ev t o a now e c hT hb hm ht hr hc ih => exact ⟨ih.1, fun _ _ h => by cases h⟩
  | killExt w bl ev t o c hT hb hm hc ih => exact ⟨ih.1, fun _ _ h => by cases h⟩

/-- **C85** Messages that are not withdrawals only mint. -/
theorem C85_others {w : World} (h : Reachable w) {id : Nat} {msg : Message} (hs : (id, msg) ∈ w.started) (hp : msg.payer = none) :
    ∀ c ∈ w.callsOf id, ∃ a n, c.2 = .mint a n := by
  obtain ⟨st, hT, -⟩ := thread h hs
  intro c hc
  obtain ⟨b, hb, rfl⟩ := List.mem_map.1 hc
  exact (hT.mints hp).1 b hb

/-- **C85** Every transaction that the minter had a ledger execute belongs to a message that was received. If it takes tokens from
an account, then that message is a withdrawal and the account is its caller's, or it is the refund of the fee to that caller from the
minter's fee account. -/
theorem C85_asked {w : World} (h : Reachable w) {b : Block} (hb : b ∈ w.blocks) {id : Nat} {t : LedgerTask} (hby : b.by' = some (id, t)) :
    ∃ msg, (id, msg) ∈ w.started ∧ ∀ who ledgerFee, 0 < b.call.op.debit who ledgerFee → ∃ p, msg.payer = some p ∧
      (who = p ∨ (who = ⟨w.mem.id, some feesSubaccount⟩ ∧ ∃ n, b.call.op = .transfer who p n)) := by
  have hlt := ((blockInv h).own b hb id t hby).2
  have hmem : id ∈ w.started.map (·.1) := by rw [(idInv h).started]; exact List.mem_range.2 hlt
  obtain ⟨⟨id', msg⟩, hs, rfl⟩ := List.mem_map.1 hmem
  refine ⟨msg, hs, ?_⟩
  have hc : (b.call.ledger, b.call.op) ∈ w.callsOf id' :=
    List.mem_map.2 ⟨b, List.mem_filter.2 ⟨hb, by simp [hby]⟩, rfl⟩
  have debit : ∀ {op : LedgerOp} {who : Account} {f : Nat}, 0 < op.debit who f →
      (∃ n, op = .burn who n) ∨ ∃ to' n, op = .transfer who to' n := by
    intro op who f hd
    cases op with
    | burn a n =>
      simp only [LedgerOp.debit] at hd
      split at hd
      · rename_i e; exact .inl ⟨n, by rw [e]⟩
      · exact absurd hd (Nat.lt_irrefl 0)
    | transfer a to' n =>
      simp only [LedgerOp.debit] at hd
      split at hd
      · rename_i e; exact .inr ⟨to', n, by rw [e]⟩
      · exact absurd hd (Nat.lt_irrefl 0)
    | mint a n => exact absurd hd (Nat.lt_irrefl 0)
  have taken : ∀ {w₀ : World} {caller : Principal}, (b.call.ledger, b.call.op) ∈ w₀.feeTaken w caller →
      ∃ n, b.call.op = .transfer ⟨caller, none⟩ ⟨w.mem.id, some feesSubaccount⟩ n := by
    intro w₀ caller hm
    unfold World.feeTaken at hm
    split at hm
    · cases hm
    · exact ⟨_, congrArg Prod.snd (List.mem_singleton.1 hm)⟩
  have refunded : ∀ {w₀ : World} {caller : Principal}, (b.call.ledger, b.call.op) ∈ w₀.feeRefunded w caller →
      ∃ n, b.call.op = .transfer ⟨w.mem.id, some feesSubaccount⟩ ⟨caller, none⟩ n := by
    intro w₀ caller hm
    unfold World.feeRefunded at hm
    split at hm
    · cases hm
    · exact ⟨_, congrArg Prod.snd (List.mem_singleton.1 hm)⟩
  have close : ∀ {caller : Principal}, msg.payer = some ⟨caller, none⟩ →
      ((∃ n, b.call.op = .burn ⟨caller, none⟩ n) ∨ (∃ n, b.call.op = .transfer ⟨caller, none⟩ ⟨w.mem.id, some feesSubaccount⟩ n) ∨
        ∃ n, b.call.op = .transfer ⟨w.mem.id, some feesSubaccount⟩ ⟨caller, none⟩ n) →
      ∀ who ledgerFee, 0 < b.call.op.debit who ledgerFee → ∃ p, msg.payer = some p ∧
        (who = p ∨ (who = ⟨w.mem.id, some feesSubaccount⟩ ∧ ∃ n, b.call.op = .transfer who p n)) := by
    intro caller hp hop who f hd
    refine ⟨_, hp, ?_⟩
    rcases debit hd with ⟨n, e⟩ | ⟨to', n, e⟩ <;> rcases hop with ⟨n', e'⟩ | ⟨n', e'⟩ | ⟨n', e'⟩ <;> rw [e] at e' <;> cases e'
    · exact .inl rfl
    · exact .inl rfl
    · exact .inr ⟨rfl, n, e⟩
  cases msg with
  | withdrawNative caller amount recipient =>
    refine close rfl ?_
    obtain ⟨w₀, -, -, hx | ⟨-, hx⟩ | hx⟩ := C85_native h hs
    · exact .inr (.inl (taken (hx.subset hc)))
    · rw [hx] at hc
      rcases List.mem_append.1 hc with hc | hc
      · exact .inr (.inl (taken hc))
      · exact .inl ⟨_, congrArg Prod.snd (List.mem_singleton.1 hc)⟩
    · rw [hx] at hc
      rcases List.mem_append.1 hc with hc | hc
      · exact .inr (.inl (taken hc))
      · exact .inr (.inr (refunded hc))
  | withdrawErc20 caller amount ledger recipient cached =>
    refine close rfl ?_
    obtain ⟨w₀, g, -, -, -, hx | hx | hx⟩ := C85_erc20 h hs
    · rcases List.mem_append.1 (hx.subset hc) with hc | hc
      · exact .inr (.inl (taken hc))
      · simp only [List.mem_cons, Prod.mk.injEq, List.not_mem_nil, or_false] at hc
        rcases hc with hc | hc <;> exact .inl ⟨_, hc.2⟩
    · rw [hx] at hc
      rcases List.mem_append.1 hc with hc | hc
      · exact .inr (.inl (taken hc))
      · exact .inr (.inr (refunded hc))
    · rw [hx] at hc
      rcases List.mem_append.1 hc with hc | hc
      · rcases List.mem_append.1 hc with hc | hc
        · exact .inr (.inl (taken hc))
        · exact .inl ⟨_, congrArg Prod.snd (List.mem_singleton.1 hc)⟩
      · exact .inr (.inr (refunded hc))
  | _ =>
    intro who f hd
    obtain ⟨a, n, e⟩ := C85_others h hs rfl _ hc
    rw [show b.call.op = _ from e] at hd
    exact absurd hd (Nat.lt_irrefl 0)

/-! ## In total -/

omit [Keccak] in
theorem sum_add (g h : Nat → Nat) (ids : List Nat) : (ids.map fun j => g j + h j).sum = (ids.map g).sum + (ids.map h).sum := by
  induction ids with
  | nil => rfl
  | cons x t ih => simp only [List.map_cons, List.sum_cons, ih]; omega

omit [Keccak] in
theorem sum_at {ids : List Nat} (hd : ids.Nodup) {i : Nat} (hi : i ∈ ids) (x : Nat) : (ids.map fun j => if j = i then x else 0).sum = x := by
  induction ids with
  | nil => cases hi
  | cons y t ih =>
    obtain ⟨hn, hd⟩ := List.nodup_cons.1 hd
    simp only [List.map_cons, List.sum_cons]
    rcases List.mem_cons.1 hi with rfl | hi
    · rw [if_pos rfl]
      have : ∀ l : List Nat, i ∉ l → (l.map fun j => if j = i then x else 0).sum = 0 := by
        intro l hl
        induction l with
        | nil => rfl
        | cons z l ihl =>
          simp only [List.mem_cons, not_or] at hl
          simp only [List.map_cons, List.sum_cons, if_neg (Ne.symm hl.1), ihl hl.2]
      rw [this t hn, Nat.add_zero]
    · rw [if_neg (fun e : y = i => hn (e ▸ hi)), ih hd hi, Nat.zero_add]

omit [Keccak] in
/-- Blocks sorted by the messages they belong to. -/
theorem sum_by_message (f : Block → Nat) {ids : List Nat} (hd : ids.Nodup) (bs : List Block)
    (h : ∀ b ∈ bs, ∀ i t, b.by' = some (i, t) → i ∈ ids) :
    ((bs.filter fun b => b.by'.isSome).map f).sum =
      (ids.map fun i => ((bs.filter fun b => b.by'.map (·.1) == some i).map f).sum).sum := by
  induction bs with
  | nil =>
    simp only [List.filter_nil, List.map_nil, List.sum_nil]
    clear h hd
    induction ids with
    | nil => rfl
    | cons x t ih => simp only [List.map_cons, List.sum_cons, Nat.zero_add]; exact ih
  | cons b bs ih =>
    have ih := ih fun b hb => h b (List.mem_cons_of_mem _ hb)
    cases hb : b.by' with
    | none => simpa [List.filter_cons, hb] using ih
    | some x =>
      obtain ⟨i, t⟩ := x
      have hi := h b List.mem_cons_self i t hb
      have : ∀ j, (((b :: bs).filter fun b => b.by'.map (·.1) == some j).map f).sum =
          (if j = i then f b else 0) + ((bs.filter fun b => b.by'.map (·.1) == some j).map f).sum := by
        intro j
        by_cases hj : j = i
        · subst hj; simp [hb]
        · simp [hb, hj, Ne.symm hj]
      simp only [this, sum_add, sum_at hd hi]
      rw [List.filter_cons, hb]
      simp only [Option.isSome_some, if_true, List.map_cons, List.sum_cons, ih]

/-- **C85** In total: all that the minter has ever taken from a user's account on a ledger is what the withdrawals that this user called
have taken. -/
theorem C85_total {w : World} (h : Reachable w) (user l : Principal) (ledgerFee : Nat) :
    ((w.blocks.filter fun b => b.by'.isSome).map fun b => if b.call.ledger = l then b.call.op.debit ⟨user, none⟩ ledgerFee else 0).sum =
      ((w.started.filter fun x => x.2.payer = some ⟨user, none⟩).map fun x => w.taken x.1 l ⟨user, none⟩ ledgerFee).sum := by
  have hst := (idInv h).started
  rw [sum_by_message _ (List.nodup_range (n := w.nextId)) w.blocks fun b hb i t ht =>
    List.mem_range.2 ((blockInv h).own b hb i t ht).2, ← hst, List.map_map]
  have term : ∀ id, (((w.blocks.filter fun b => b.by'.map (·.1) == some id)).map fun b =>
      if b.call.ledger = l then b.call.op.debit ⟨user, none⟩ ledgerFee else 0).sum = w.taken id l ⟨user, none⟩ ledgerFee := by
    intro id
    unfold World.taken World.callsOf World.blocksOf
    generalize w.blocks.filter _ = bs
    induction bs with
    | nil => rfl
    | cons b bs ih =>
      by_cases hb : b.call.ledger = l
      · simpa [List.filter_cons, hb] using ih
      · simpa [List.filter_cons, hb] using ih
  simp only [Function.comp_def, term]
  have zero : ∀ x ∈ w.started, x.2.payer ≠ some ⟨user, none⟩ → w.taken x.1 l ⟨user, none⟩ ledgerFee = 0 := by
    intro x hx hp
    have all : ∀ c ∈ w.callsOf x.1, c.2.debit ⟨user, none⟩ ledgerFee = 0 := by
      intro c hc
      obtain ⟨b, hb, rfl⟩ := List.mem_map.1 hc
      obtain ⟨hb, hk⟩ := List.mem_filter.1 hb
      cases hby : b.by' with
      | none => rw [hby] at hk; cases hk
      | some y =>
        obtain ⟨i, t⟩ := y
        have hi : i = x.1 := by simpa [hby] using hk
        subst hi
        obtain ⟨msg, hm, hask⟩ := C85_asked h hb hby
        have : msg = x.2 := (idInv h).started_unique hm hx
        subst this
        refine Nat.eq_zero_of_not_pos fun hpos => ?_
        obtain ⟨p, hp', rfl | ⟨hw, -⟩⟩ := hask _ _ hpos
        · exact hp hp'
        · cases hw
    unfold World.taken
    generalize w.callsOf x.1 = cs at all
    induction cs with
    | nil => rfl
    | cons c cs ih =>
      have h1 := all c List.mem_cons_self
      have h2 := ih fun c hc => all c (List.mem_cons_of_mem _ hc)
      by_cases hc : c.1 = l
      · simp [hc, h1, h2]
      · simpa [List.filter_cons, hc] using h2
  revert zero
  generalize w.started = st
  intro zero
  clear hst
  induction st with
  | nil => rfl
  | cons x st ih =>
    have ih := ih fun y hy => zero y (List.mem_cons_of_mem _ hy)
    by_cases hx : x.2.payer = some ⟨user, none⟩
    · simp [hx, ih]
    · simp [hx, ih, zero x List.mem_cons_self hx]

end

namespace Example
attribute [local instance] keccak

/-- A call that is killed after the burn has still taken exactly the amount of the call. -/
theorem C85_example_killed : ∃ w, Reachable w ∧ decide (
    (w.finished.map (·.2) = [.killed]) ∧
    w.callsOf 0 = [(ledger, .transfer ⟨alice, none⟩ ⟨minter, some feesSubaccount⟩ 90), (ledger, .burn ⟨alice, none⟩ 4999999900)] ∧
    w.taken 0 ledger ⟨alice, none⟩ 10 = 5000000000 ∧ w.taken 0 usdcLedger ⟨alice, none⟩ 10 = 0) = true :=
  after_reachable (arg := initArg) (l := [.start (.withdrawNative alice 5000000000 to) 5, .execute 0, .deliver 0 7, .execute 0, .kill 0])
    (by decide +kernel)

/-- An ERC-20 withdrawal of 700 tokens at base fee 20 and priority fee 2: 100 of the withdrawal fee and 65000 · 42 of the transaction
fee on the native ledger. -/
theorem C85_example_erc20 : ∃ w, Reachable w ∧ decide (
    maxFeeAt 20 2 = 2730000 ∧
    w.callsOf 1 = [(ledger, .transfer ⟨alice, none⟩ ⟨minter, some feesSubaccount⟩ 90), (ledger, .burn ⟨alice, none⟩ 2730000),
      (usdcLedger, .burn ⟨alice, none⟩ 700)] ∧
    w.taken 1 ledger ⟨alice, none⟩ 10 = 2730100 ∧ w.taken 1 usdcLedger ⟨alice, none⟩ 10 = 700 ∧
    w.blocks.all (fun b => b.by'.isSome) = true) = true :=
  after_reachable (arg := initArg) (l := [.start (.addToken manager usdcArg) 4,
    .start (.withdrawErc20 alice 700 usdcLedger to (some gasEstimate)) 5, .execute 0, .deliver 0 7, .execute 0, .deliver 0 9, .execute 0,
    .deliver 0 10]) (by decide +kernel)

end Example
end EvmMinter
