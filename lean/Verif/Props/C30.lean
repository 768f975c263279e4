import Verif.Lemmas.Story
import Verif.Lemmas.Config
import Verif.Spec.Endpoint
import Verif.Spec.ExampleWorld
/-!
# C30, C31, C32: the endpoints for withdrawals
-/

namespace EvmMinter
open Spec

section
variable [Keccak]

theorem native_story {w : World} (h : Reachable w) {id : Nat} {caller : Principal} {amount : Nat} {recipient : List Char}
    (hs : (id, .withdrawNative caller amount recipient) ∈ w.started) {o : Outcome} (hf : (id, o) ∈ w.finished) :
    NativeStory w id caller amount recipient (w.blocksOf id) (w.eventsOf id) (.done o) := by
  obtain ⟨st, hT, hh⟩ := thread h hs
  have := (idInv h).finished_unique hf hh
  subst this
  exact hT.native

theorem erc20_story {w : World} (h : Reachable w) {id : Nat} {caller : Principal} {amount : Nat} {ledger : Principal} {recipient : List Char}
    {cached : Option GasFeeEstimate} (hs : (id, .withdrawErc20 caller amount ledger recipient cached) ∈ w.started) {o : Outcome}
    (hf : (id, o) ∈ w.finished) : Erc20Story w id caller amount ledger recipient (w.blocksOf id) (w.eventsOf id) (.done o) := by
  obtain ⟨st, hT, hh⟩ := thread h hs
  have := (idInv h).finished_unique hf hh
  subst this
  exact hT.erc20

omit [Keccak] in
theorem refundAmount_eq {fee transferFee : Nat} (h : fee < U256) : refundAmount fee transferFee = fee - 2 * transferFee := by
  unfold refundAmount cmul csub
  split <;> simp only [Option.getD_some, Option.getD_none]
  · split <;> simp only [Option.getD_some, Option.getD_none] <;> womega
  · simp only [Nat.le_refl, ↓reduceIte, Nat.sub_self, Option.getD_some]; womega

/-! ## `withdraw_native_token` -/

/-- **C30** (success): a call that returns burn index `i` has recorded exactly one request, for the amount and account of the
burn in block `i` of the native ledger and the destination of the call. With the withdrawal fee that was configured when the
call arrived, the caller paid exactly `amount`. -/
theorem C30_success {w : World} (h : Reachable w) {id : Nat} {caller : Principal} {amount : Nat} {recipient : List Char} {i : Nat}
    (hs : (id, .withdrawNative caller amount recipient) ∈ w.started)
    (hf : (id, .replied (some (.native (.ok i)))) ∈ w.finished) :
    ∃ (w₀ : World) (dest : Address) (burned now : Nat) (b : Block), Arrived w₀ w id ∧ validateDestination recipient = some dest ∧
      w.eventsOf id = [.acceptedNativeWithdrawalRequest ⟨burned, dest, i, caller, none, some now⟩] ∧
      w.blockAt w.mem.m.st.nativeLedgerId i = some b ∧ b ∈ w.blocksOf id ∧ b.call.op = .burn ⟨caller, none⟩ burned ∧
      (match w₀.mem.m.st.withdrawalNativeFee with
       | none => w.callsOf id = [(w.mem.m.st.nativeLedgerId, .burn ⟨caller, none⟩ burned)] ∧ burned = amount
       | some fee => ∃ t, t + w₀.mem.m.st.nativeLedgerTransferFee = fee ∧ burned + fee = amount ∧
          w.callsOf id = [(w.mem.m.st.nativeLedgerId, .transfer ⟨caller, none⟩ ⟨w.mem.id, some feesSubaccount⟩ t),
            (w.mem.m.st.nativeLedgerId, .burn ⟨caller, none⟩ burned)]) ∧
      w.taken id w.mem.m.st.nativeLedgerId ⟨caller, none⟩ w₀.mem.m.st.nativeLedgerTransferFee = amount := by
  obtain ⟨q, am, now, bl, hq, hp, hbl, hat, hev⟩ := native_story h hs hf
  obtain ⟨w₀, hn, hfee, htf⟩ := hq.config
  refine ⟨w₀, q.destination, am, now, _, hn, hq.destination, ?_, hat, ?_, ?_, ?_, ?_⟩
  · rw [hev, hq.caller_eq]
  · rw [hbl]; simp
  · simp [blk, LedgerTask.call, hq.caller_eq]
  · rcases hp with ⟨hn, rfl, rfl⟩ | ⟨fee, t, hn, ha, hft, rfl⟩
    · rw [hfee, hn]
      refine ⟨?_, hq.amount_eq⟩
      simp [World.callsOf, hbl, blk, LedgerTask.call, hq.caller_eq]
    · rw [hfee, hn]
      refine ⟨t, htf ▸ hft.symm, by rw [← ha, hq.amount_eq], ?_⟩
      simp [World.callsOf, hbl, blk, LedgerTask.call, hq.caller_eq]
  · rcases hp with ⟨hn, rfl, rfl⟩ | ⟨fee, t, hn, ha, hft, rfl⟩
    · simp [World.taken, World.callsOf, hbl, blk, LedgerTask.call, hq.caller_eq, LedgerOp.debit, hq.amount_eq]
    · simp [World.taken, World.callsOf, hbl, blk, LedgerTask.call, hq.caller_eq, LedgerOp.debit, htf]
      rw [← hq.amount_eq, ha, ← hft]
      womega

/-- **C30** (no success): a call that has not returned a burn index has recorded nothing. It may have failed, been trapped by
its own code or by an injected trap, or not have ended yet. -/
theorem C30_nothing_recorded {w : World} (h : Reachable w) {id : Nat} {caller : Principal} {amount : Nat} {recipient : List Char}
    (hs : (id, .withdrawNative caller amount recipient) ∈ w.started)
    (hf : ∀ i, (id, .replied (some (.native (.ok i)))) ∉ w.finished) : w.eventsOf id = [] := by
  obtain ⟨st, hT, hh⟩ := thread h hs
  have hn := hT.native
  cases st with
  | waiting t a =>
    cases t with
    | ledger t => exact hn.1
    | ext t => exact hn.elim
  | done o =>
    cases o with
    | trapped => exact hn.1
    | killed => exact hn
    | replied r =>
      match r, hn with
      | some (.native (.ok i)), _ => exact absurd hh (hf i)
      | some (.native (.error e)), hn => exact hn.1

/-- **C30** (failure): a call that returns an error, or that its own code traps, burned nothing.
Missing for the full claim: the same for calls ended by a trap that the code does not cause (`C30_injected_trap`). -/
theorem C30_failure_partial {w : World} (h : Reachable w) {id : Nat} {caller : Principal} {amount : Nat} {recipient : List Char} {o : Outcome}
    (hs : (id, .withdrawNative caller amount recipient) ∈ w.started) (hf : (id, o) ∈ w.finished)
    (ho : o = .trapped ∨ ∃ e, o = .replied (some (.native (.error e)))) :
    w.eventsOf id = [] ∧ ∀ c ∈ w.callsOf id, c.2.isBurn = false := by
  have hn := native_story h hs hf
  have : w.eventsOf id = [] ∧ NativeFailed w id caller amount recipient (w.blocksOf id) := by
    rcases ho with rfl | ⟨e, rfl⟩ <;> exact hn
  refine ⟨this.1, ?_⟩
  intro c hc
  obtain ⟨b, hb, rfl⟩ := List.mem_map.1 hc
  rcases this.2 with h0 | ⟨q, hq, h0 | ⟨fee, t, _, _, h0 | ⟨e, h0⟩⟩⟩ <;> rw [h0] at hb <;> simp at hb
  · subst hb; rfl
  · rcases hb with rfl | rfl <;> rfl

/-- **C31** (partial): a call of `withdraw_native_token` that fails or traps by itself costs its caller at most the withdrawal
fee that was configured when it arrived, and two ledger transfer fees if the refund was executed.
The full claim does not hold: see `C31_fee_lost` and `C31_trap_after_fee`. -/
theorem C31_loss_partial {w : World} (h : Reachable w) {id : Nat} {caller : Principal} {amount : Nat} {recipient : List Char} {o : Outcome}
    (hs : (id, .withdrawNative caller amount recipient) ∈ w.started) (hf : (id, o) ∈ w.finished)
    (ho : o = .trapped ∨ ∃ e, o = .replied (some (.native (.error e)))) :
    w.callsOf id = [] ∨ ∃ (w₀ : World) (fee : Nat), Arrived w₀ w id ∧ w₀.mem.m.st.withdrawalNativeFee = some fee ∧
      w.taken id w.mem.m.st.nativeLedgerId ⟨caller, none⟩ w₀.mem.m.st.nativeLedgerTransferFee = fee ∧
      (w.given id w.mem.m.st.nativeLedgerId ⟨caller, none⟩ = 0 ∧ (w.callsOf id).length = 1 ∨
        w.given id w.mem.m.st.nativeLedgerId ⟨caller, none⟩ = fee - 2 * w₀.mem.m.st.nativeLedgerTransferFee) := by
  have hn := native_story h hs hf
  have : NativeFailed w id caller amount recipient (w.blocksOf id) := by
    rcases ho with rfl | ⟨e, rfl⟩ <;> exact hn.2
  rcases this with h0 | ⟨q, hq, h0 | ⟨fee, t, hfe, hft, h0⟩⟩
  · left; simp [World.callsOf, h0]
  · left; simp [World.callsOf, h0]
  · right
    obtain ⟨w₀, hn, hfee, htf⟩ := hq.config
    refine ⟨w₀, fee, hn, hfee.trans hfe, ?_, ?_⟩
    · rcases h0 with h0 | ⟨e, h0⟩ <;>
        simp [World.taken, World.callsOf, h0, blk, LedgerTask.call, hq.caller_eq, LedgerOp.debit, htf, hft]
    · rcases h0 with h0 | ⟨e, h0⟩
      · left
        simp [World.given, World.callsOf, h0, blk, LedgerTask.call, hq.caller_eq, LedgerOp.credit]
      · right
        have hg : w.given id w.mem.m.st.nativeLedgerId ⟨caller, none⟩ = refundAmount fee q.transferFee := by
          simp [World.given, World.callsOf, h0, blk, LedgerTask.call, hq.caller_eq, LedgerOp.credit]
        have hb' := ((config_valid (tracks hn.reachable)).withdrawal fee (hfee.trans hfe)).2
        rw [hg, htf]
        exact refundAmount_eq hb'

/-! ## `withdraw_erc20` -/

omit [Keccak] in
theorem Erc20Charged.Paid.feeTaken {w₀ w : World} {id : Nat} {q : Erc20Charged} {bl : List Block} {caller : Principal} (hp : q.Paid w id bl)
    (hc : q.caller = caller) (hl : q.nativeLedger = w.mem.m.st.nativeLedgerId) (hf : w₀.mem.m.st.withdrawalNativeFee = q.fee)
    (ht : w₀.mem.m.st.nativeLedgerTransferFee = q.transferFee) :
    bl.map (fun b => (b.call.ledger, b.call.op)) = w₀.feeTaken w caller := by
  unfold World.feeTaken
  rw [hf, ht]
  rcases hp with ⟨h, rfl⟩ | ⟨fee, t, h, hft, rfl⟩ <;> rw [h]
  · rfl
  · have : fee - q.transferFee = t := by rw [hft]; womega
    simp [blk, LedgerTask.call, hc, hl, this]

/-- **C32** (success): a call that returns two burn indices has recorded exactly one request that names both burns, which are
for the transaction fee and the tokens. The caller paid the withdrawal fee that was configured when the call arrived, the
transaction fee and `amount` tokens, and nothing else. -/
theorem C32_success {w : World} (h : Reachable w) {id : Nat} {caller : Principal} {amount : Nat} {ledger : Principal} {recipient : List Char}
    {cached : Option GasFeeEstimate} {ni i : Nat} (hs : (id, .withdrawErc20 caller amount ledger recipient cached) ∈ w.started)
    (hf : (id, .replied (some (.erc20 (.ok (ni, i))))) ∈ w.finished) :
    ∃ (w₀ : World) (r : Erc20Request) (b b' : Block), Arrived w₀ w id ∧ w.eventsOf id = [.acceptedErc20WithdrawalRequest r] ∧
      validateDestination recipient = some r.destination ∧ r.from = caller ∧ r.fromSubaccount = none ∧ r.withdrawalAmount = amount ∧
      r.erc20LedgerId = ledger ∧ (∃ symbol, w₀.mem.m.st.erc20Tokens.getEntryAlt r.erc20ContractAddress = some (ledger, symbol)) ∧
      r.nativeLedgerBurnIndex = ni ∧ r.erc20LedgerBurnIndex = i ∧
      w.blockAt w.mem.m.st.nativeLedgerId ni = some b ∧ b ∈ w.blocksOf id ∧ b.call.op = .burn ⟨caller, none⟩ r.maxTransactionFee ∧
      w.blockAt ledger i = some b' ∧ b' ∈ w.blocksOf id ∧ b'.call.op = .burn ⟨caller, none⟩ amount ∧
      w.callsOf id = w₀.feeTaken w caller ++ [(w.mem.m.st.nativeLedgerId, b.call.op), (ledger, b'.call.op)] := by
  obtain ⟨q, now, bl, hq, ⟨bl', hp, rfl, hat⟩, hbl, hat', hev⟩ := erc20_story h hs hf
  obtain ⟨w₀, g, hn, ⟨ledger', htok⟩, htf, hfee, _⟩ := hq.config
  have hl' : q.token.erc20LedgerId = ledger' := by
    simp only [State.findErc20TokenByLedgerId, Option.map_eq_some_iff] at htok
    obtain ⟨x, _, hx⟩ := htok
    rw [← hx]
  obtain ⟨_, _, htok', _⟩ := hq.call.config
  have hl : q.token.erc20LedgerId = ledger := by
    simp only [State.findErc20TokenByLedgerId, Option.map_eq_some_iff] at htok'
    obtain ⟨x, _, hx⟩ := htok'
    rw [← hx]
  have hll : ledger = ledger' := hl.symm.trans hl'
  subst hll
  have hreg : ∃ symbol, w₀.mem.m.st.erc20Tokens.getEntryAlt q.token.erc20ContractAddress = some (ledger, symbol) := by
    simp only [State.findErc20TokenByLedgerId, Option.map_eq_some_iff] at htok
    obtain ⟨x, hx, hx'⟩ := htok
    refine ⟨x.2, ?_⟩
    rw [← hx']
    have wf := (registry_of_tracks (tracks hn.reachable)).wf
    exact (DMKM.getEntryAlt_eq wf).2 ((DMKM.getEntry_eq wf).1 hx)
  refine ⟨w₀, _, _, _, hn, hev, hq.call.destination, hq.call.caller_eq, rfl, hq.call.amount_eq, hl, hreg, rfl, rfl,
    hat, ?_, ?_, hl ▸ hat', ?_, ?_, ?_⟩
  · rw [hbl]; simp
  · simp [blk, LedgerTask.call, hq.call.caller_eq, Erc20Charged.request]
  · rw [hbl]; simp
  · simp [blk, LedgerTask.call, hq.call.caller_eq, hq.call.amount_eq]
  · rw [World.callsOf, hbl, List.append_assoc, List.map_append, hp.feeTaken hq.call.caller_eq hq.call.ledger_eq hfee htf]
    simp [blk, LedgerTask.call, hl, hq.call.ledger_eq, hq.call.caller_eq]

/-- Message `id` burned the transaction fee in block `ni`, and then the ledger of the tokens returned `le`. It recorded a
reimbursement of all that it burned if that ledger did not answer, otherwise of what it burned minus a ledger transfer fee, and
nothing if that is zero. Besides the burn it made the transfer of the withdrawal fee and perhaps the refund. -/
def Erc20Compensated (w₀ w : World) (id : Nat) (caller : Principal) (ni : Nat) (le : LedgerError) : Prop :=
  ∃ (b : Block) (burned amount : Nat), w.blockAt w.mem.m.st.nativeLedgerId ni = some b ∧ b ∈ w.blocksOf id ∧
    b.call.op = .burn ⟨caller, none⟩ burned ∧
    (w.callsOf id = w₀.feeTaken w caller ++ [(w.mem.m.st.nativeLedgerId, b.call.op)] ∨
      w.callsOf id = w₀.feeTaken w caller ++ [(w.mem.m.st.nativeLedgerId, b.call.op)] ++ w₀.feeRefunded w caller) ∧
    (le = .temporarilyUnavailable → amount = burned) ∧
    (le ≠ .temporarilyUnavailable → amount = burned - w₀.mem.m.st.nativeLedgerTransferFee) ∧
    (0 < amount → w.eventsOf id = [.failedErc20WithdrawalRequest ⟨ni, amount, caller, none, none⟩]) ∧
    (amount = 0 → w.eventsOf id = [])

/-- Message `id` burned nothing, recorded nothing and made at most the transfer of the withdrawal fee and its refund. -/
def Erc20Uncharged (w : World) (id : Nat) (caller : Principal) : Prop :=
  w.eventsOf id = [] ∧ (w.callsOf id = [] ∨ ∃ w₀, Arrived w₀ w id ∧
    (w.callsOf id = w₀.feeTaken w caller ∨ w.callsOf id = w₀.feeTaken w caller ++ w₀.feeRefunded w caller))

theorem erc20_aftermath {w : World} {id : Nat} {caller : Principal} {amount : Nat} {ledger : Principal}
    {recipient : List Char} {q : Erc20Charged} {bl : List Block} {e : WithdrawErc20Error} (hq : q.Of w id caller amount ledger recipient)
    (ha : q.Aftermath w id bl (w.eventsOf id) e)
    (hb : w.blocksOf id = bl ∨ ∃ fee e, q.fee = some fee ∧ w.blocksOf id = bl ++ [blk w id (.erc20Refund q (refundAmount fee q.transferFee) e)]) :
    Erc20Uncharged w id caller ∨
      ∃ w₀ ni le, Arrived w₀ w id ∧ e = .erc20LedgerError ni le ∧ Erc20Compensated w₀ w id caller ni le := by
  obtain ⟨w₀, g, hn, _, htf, hfee, _⟩ := hq.config
  have hcalls : w.callsOf id = bl.map (fun b => (b.call.ledger, b.call.op)) ∨
      w.callsOf id = bl.map (fun b => (b.call.ledger, b.call.op)) ++ w₀.feeRefunded w caller := by
    rcases hb with hb | ⟨fee, e, hf, hb⟩
    · exact .inl (by rw [World.callsOf, hb])
    · right
      rw [World.callsOf, hb, List.map_append]
      have hlt := ((config_valid (tracks hn.reachable)).withdrawal fee (hfee.trans hf)).2
      simp [World.feeRefunded, hfee, hf, htf, blk, LedgerTask.call, hq.call.caller_eq, hq.call.ledger_eq, refundAmount_eq hlt]
  rcases ha with ⟨hp, hev, _⟩ | ⟨now, ni, le, ⟨bl', hp, rfl, hat⟩, rfl, hc⟩
  · left
    rw [hp.feeTaken hq.call.caller_eq hq.call.ledger_eq hfee htf] at hcalls
    exact ⟨hev, .inr ⟨w₀, hn, hcalls⟩⟩
  · right
    refine ⟨w₀, ni, le, hn, rfl, _, q.txFee, erc20ReimbursedAmount q.txFee q.transferFee le, hat, ?_, ?_, ?_, ?_, ?_, ?_, ?_⟩
    · rcases hb with hb | ⟨fee, e, _, hb⟩ <;> rw [hb] <;> simp
    · simp [blk, LedgerTask.call, hq.call.caller_eq]
    · rw [List.map_append, hp.feeTaken hq.call.caller_eq hq.call.ledger_eq hfee htf] at hcalls
      simpa [blk, LedgerTask.call, hq.call.caller_eq, hq.call.ledger_eq] using hcalls
    · rintro rfl; rfl
    · intro hne
      rw [htf]
      have : erc20ReimbursedAmount q.txFee q.transferFee le = (csub q.txFee q.transferFee).getD 0 := by
        cases le <;> first | rfl | exact absurd rfl hne
      rw [this]
      unfold csub
      split <;> simp only [Option.getD_some, Option.getD_none] <;> womega
    · intro hpos
      rcases hc with ⟨_, hev⟩ | ⟨h0, _⟩
      · rw [hev, hq.call.caller_eq]
      · rw [h0] at hpos; exact absurd hpos (Nat.lt_irrefl 0)
    · intro h0
      rcases hc with ⟨hpos, _⟩ | ⟨_, hev⟩
      · rw [h0] at hpos; exact absurd hpos (Nat.lt_irrefl 0)
      · exact hev

/-- **C32** (failure): a call that returns an error, or that its own code traps, has either burned nothing and recorded nothing,
or burned the transaction fee only, returned the index of that burn, and recorded its reimbursement.
Missing for the full claim: the same for calls ended by a trap that the code does not cause (`C32_injected_trap`). -/
theorem C32_failure_partial {w : World} (h : Reachable w) {id : Nat} {caller : Principal} {amount : Nat} {ledger : Principal}
    {recipient : List Char} {cached : Option GasFeeEstimate} {o : Outcome}
    (hs : (id, .withdrawErc20 caller amount ledger recipient cached) ∈ w.started) (hf : (id, o) ∈ w.finished)
    (ho : o = .trapped ∨ ∃ e, o = .replied (some (.erc20 (.error e)))) :
    Erc20Uncharged w id caller ∨
      ∃ w₀ ni le, Arrived w₀ w id ∧ o = .replied (some (.erc20 (.error (.erc20LedgerError ni le)))) ∧ Erc20Compensated w₀ w id caller ni le := by
  have hn := erc20_story h hs hf
  rcases ho with rfl | ⟨e, rfl⟩
  · exact .inl ⟨hn.2, .inl (by simp [World.callsOf, hn.1])⟩
  · rcases hn with ⟨h0, hev⟩ | ⟨q, bl, hq, ha, hb⟩
    · exact .inl ⟨hev, .inl (by simp [World.callsOf, h0])⟩
    · rcases erc20_aftermath hq ha hb with h1 | ⟨w₀, ni, le, h1, rfl, h2⟩
      · exact .inl h1
      · exact .inr ⟨w₀, ni, le, h1, rfl, h2⟩

/-- **C32** (no success): a call that has not returned two burn indices has not recorded a request. Whatever happened to it,
all it may have recorded is the reimbursement of its own burn. -/
theorem C32_nothing_recorded {w : World} (h : Reachable w) {id : Nat} {caller : Principal} {amount : Nat} {ledger : Principal}
    {recipient : List Char} {cached : Option GasFeeEstimate} (hs : (id, .withdrawErc20 caller amount ledger recipient cached) ∈ w.started)
    (hf : ∀ x, (id, .replied (some (.erc20 (.ok x)))) ∉ w.finished) :
    w.eventsOf id = [] ∨ ∃ w₀ ni le, Arrived w₀ w id ∧ Erc20Compensated w₀ w id caller ni le := by
  obtain ⟨st, hT, hh⟩ := thread h hs
  have hn := hT.erc20
  have fin : ∀ {q : Erc20Charged} {bl : List Block} {e : WithdrawErc20Error}, q.Of w id caller amount ledger recipient →
      q.Aftermath w id bl (w.eventsOf id) e →
      (w.blocksOf id = bl ∨ ∃ fee e, q.fee = some fee ∧ w.blocksOf id = bl ++ [blk w id (.erc20Refund q (refundAmount fee q.transferFee) e)]) →
      w.eventsOf id = [] ∨ ∃ w₀ ni le, Arrived w₀ w id ∧ Erc20Compensated w₀ w id caller ni le := by
    intro q bl e hq ha hb
    rcases erc20_aftermath hq ha hb with h1 | ⟨w₀, ni, le, h1, rfl, h2⟩
    · exact .inl h1.1
    · exact .inr ⟨w₀, ni, le, h1, h2⟩
  cases st with
  | waiting t a =>
    cases t with
    | ledger t =>
      obtain ⟨bl', hbl, hn⟩ := hn
      clear hT
      cases t <;> try exact hn.elim
      case erc20Refund q am e =>
        obtain ⟨hq, ⟨fee, hfee, rfl⟩, ha⟩ := hn
        refine fin hq ha ?_
        cases a with
        | none => exact .inl (by rw [hbl]; simp [ownBlock])
        | some a =>
          cases a with
          | block i => exact .inr ⟨fee, e, hfee, hbl⟩
          | _ => exact .inl (by rw [hbl]; simp [ownBlock])
      all_goals exact .inl hn.2.1
    | ext t =>
      clear hT
      cases t <;> try exact hn.elim
      exact .inl hn.2.2
  | done o =>
    cases o with
    | trapped => exact .inl hn.2
    | killed =>
      rcases hn with hn | ⟨q, e, bl, hq, ha, hb⟩
      · exact .inl hn
      · exact fin hq ha hb
    | replied r =>
      match r, hn with
      | some (.erc20 (.ok (ni, i))), _ => exact absurd hh (hf (ni, i))
      | some (.erc20 (.error e)), hn =>
        rcases hn with ⟨_, h0⟩ | ⟨q, bl, hq, ha, hb⟩
        · exact .inl h0
        · exact fin hq ha hb

end

namespace Example
attribute [local instance] keccak

def to : List Char := "0x000000000000000000000000000000000000beef".toList

/-- Alice withdraws 5000000000 with fee 100 and transfer fee 10: a transfer of 90 and a burn. -/
theorem C30_example : ∃ w, Reachable w ∧ decide (
    (w.finished.map (·.2) = [.replied (some (.native (.ok 1)))]) ∧
    w.eventsOf 0 = [.acceptedNativeWithdrawalRequest ⟨4999999900, 0xbeef, 1, alice, none, some 7⟩] ∧
    w.callsOf 0 = [(ledger, .transfer ⟨alice, none⟩ ⟨minter, some feesSubaccount⟩ 90), (ledger, .burn ⟨alice, none⟩ 4999999900)] ∧
    w.taken 0 ledger ⟨alice, none⟩ 10 = 5000000000) = true :=
  after_reachable (arg := initArg) (l := [.start (.withdrawNative alice 5000000000 to) 5, .execute 0, .deliver 0 7, .execute 0, .deliver 0 9])
    (by decide +kernel)

/-- A refused burn: an error, and no request. -/
theorem C30_example_refused : ∃ w, Reachable w ∧ decide (
    (w.finished.map (·.2) = [.replied (some (.native (.error (.insufficientFunds 3))))]) ∧ w.eventsOf 0 = [] ∧
    w.callsOf 0 = [(ledger, .transfer ⟨alice, none⟩ ⟨minter, some feesSubaccount⟩ 90),
      (ledger, .transfer ⟨minter, some feesSubaccount⟩ ⟨alice, none⟩ 80)] ∧
    w.taken 0 ledger ⟨alice, none⟩ 10 = 100 ∧ w.given 0 ledger ⟨alice, none⟩ = 80) = true :=
  after_reachable (arg := initArg) (l := [.start (.withdrawNative alice 5000000000 to) 5, .execute 0, .deliver 0 7,
    .refuse 0 (.insufficientFunds 3), .deliver 0 9, .execute 0, .deliver 0 11]) (by decide +kernel)

/-- A trap in the callback after the burn, from outside the code: the tokens are burned and there is no request. This is why
the second half of C30 is restricted to traps of the code itself. -/
theorem C30_injected_trap : ∃ w, Reachable w ∧ decide (
    (w.finished.map (·.2) = [.killed]) ∧ w.eventsOf 0 = [] ∧ w.mem.m.st.txs.pending = [] ∧
    (ledger, .burn ⟨alice, none⟩ 4999999900) ∈ w.callsOf 0) = true :=
  after_reachable (arg := initArg) (l := [.start (.withdrawNative alice 5000000000 to) 5, .execute 0, .deliver 0 7, .execute 0, .kill 0])
    (by decide +kernel)

/-- C31 is violated: the burn is refused, the refund too (the minter has no allowance for its fee account), and the caller has
lost the withdrawal fee of 100 where the ledger fee is 10. -/
theorem C31_fee_lost : ∃ w, Reachable w ∧ decide (
    (w.finished.map (·.2) = [.replied (some (.native (.error (.insufficientFunds 3))))]) ∧
    w.mem.m.st.nativeLedgerTransferFee = 10 ∧
    w.taken 0 ledger ⟨alice, none⟩ 10 = 100 ∧ w.given 0 ledger ⟨alice, none⟩ = 0) = true :=
  after_reachable (arg := initArg) (l := [.start (.withdrawNative alice 5000000000 to) 5, .execute 0, .deliver 0 7,
    .refuse 0 (.insufficientFunds 3), .deliver 0 9, .refuse 0 (.insufficientAllowance 0), .deliver 0 11]) (by decide +kernel)

/-- C31 is violated: with a withdrawal fee above the minimum amount, a smaller withdrawal traps after the fee was taken. -/
theorem C31_trap_after_fee : ∃ w, Reachable w ∧ decide (
    (w.finished.map (·.2) = [.trapped]) ∧
    w.taken 0 ledger ⟨alice, none⟩ 10 = 3000000000 ∧ w.given 0 ledger ⟨alice, none⟩ = 0) = true :=
  after_reachable (arg := { initArg with withdrawalNativeFee := 3000000000 })
    (l := [.start (.withdrawNative alice 2000000000 to) 5, .execute 0, .deliver 0 7]) (by decide +kernel)

def usdcArg : AddErc20TokenArg := ⟨11155111, "0x000000000000000000000000000000000000a0b8".toList, "ckUSDC", usdcLedger⟩

def gasEstimate : GasFeeEstimate := ⟨20, 2⟩

/-- Alice withdraws 700 tokens: the fee, the burn of the transaction fee and the burn of the tokens. -/
theorem C32_example : ∃ w, Reachable w ∧ decide (
    (w.finished.map (·.2) = [.replied none, .replied (some (.erc20 (.ok (1, 0))))]) ∧
    (w.eventsOf 1).length = 1 ∧ w.mem.m.st.txs.pending.length = 1 ∧
    (w.callsOf 1).map (·.1) = [ledger, ledger, usdcLedger] ∧ w.taken 1 usdcLedger ⟨alice, none⟩ 10 = 700) = true :=
  after_reachable (arg := initArg) (l := [.start (.addToken manager usdcArg) 4,
    .start (.withdrawErc20 alice 700 usdcLedger to (some gasEstimate)) 5, .execute 0, .deliver 0 7, .execute 0, .deliver 0 9, .execute 0,
    .deliver 0 10]) (by decide +kernel)

/-- The burn of the tokens is refused: the burn of the transaction fee is reimbursed, minus the transfer fee. -/
theorem C32_example_refused : ∃ w, Reachable w ∧ decide (
    (w.finished.map (·.2) = [.replied none, .replied (some (.erc20 (.error (.erc20LedgerError 1 (.insufficientFunds 3)))))]) ∧
    w.eventsOf 1 = [.failedErc20WithdrawalRequest ⟨1, 2729990, alice, none, none⟩] ∧
    (w.callsOf 1).map (·.1) = [ledger, ledger]) = true :=
  after_reachable (arg := initArg) (l := [.start (.addToken manager usdcArg) 4,
    .start (.withdrawErc20 alice 700 usdcLedger to (some gasEstimate)) 5, .execute 0, .deliver 0 7, .execute 0, .deliver 0 9,
    .refuse 0 (.insufficientFunds 3), .deliver 0 10, .refuse 0 (.insufficientAllowance 0), .deliver 0 11]) (by decide +kernel)

/-- A trap from outside the code after both burns: nothing is recorded. -/
theorem C32_injected_trap : ∃ w, Reachable w ∧ decide (
    (w.finished.map (·.2) = [.replied none, .killed]) ∧ w.eventsOf 1 = [] ∧ w.mem.m.st.txs.pending = [] ∧
    w.mem.m.st.txs.reimbursementRequests.get (.native 1) = none ∧
    (w.callsOf 1).map (·.2.isBurn) = [false, true, true]) = true :=
  after_reachable (arg := initArg) (l := [.start (.addToken manager usdcArg) 4,
    .start (.withdrawErc20 alice 700 usdcLedger to (some gasEstimate)) 5, .execute 0, .deliver 0 7, .execute 0, .deliver 0 9, .execute 0,
    .kill 0]) (by decide +kernel)

end Example
end EvmMinter
