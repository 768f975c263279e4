import Verif.Lemmas.Icrc
import Verif.Lemmas.Truth
import Verif.Spec.ExampleBank
import Verif.Props.C30
import Verif.Props.C60
import Verif.Props.C64
/-!
# C75: with ledgers that follow the standard

What the minter relies on when it calls ledgers, and what follows for the holders of twin tokens (Spec/Icrc.lean).
-/

namespace EvmMinter
open Spec Helper

section
variable [Keccak]
variable {w : World} {B : Bank}

/-- **C75.** Whenever a ledger executes a call of the minter, it does what the minter takes it for: it mints when the minter wants to
mint, burns when it wants to burn, and transfers when it wants to transfer. -/
theorem C75_meaning (h : Banked w B) (t : LedgerTask) {L : Icrc}
    (hd : (B (t.call w.mem.id).ledger).Does w.minting ((t.args w.mem.id).spender.map Account.key) (t.args w.mem.id).from.key
      (t.args w.mem.id).to.key (t.args w.mem.id).amount L) :
    (B (t.call w.mem.id).ledger).Performs w.minting L (t.call w.mem.id).op :=
  (((bankInv h).intact _).performs t hd).1

/-- **C75.** The minter takes tokens only from accounts that allowed it: if a call of the minter makes a balance smaller, it is that of
the account named in the call, and its owner has allowed the minter to take that much. -/
theorem C75_consent (h : Banked w B) (t : LedgerTask) {L : Icrc}
    (hd : (B (t.call w.mem.id).ledger).Does w.minting ((t.args w.mem.id).spender.map Account.key) (t.args w.mem.id).from.key
      (t.args w.mem.id).to.key (t.args w.mem.id).amount L) {x : AccountKey} (hx : L.bal x < (B (t.call w.mem.id).ledger).bal x) :
    x = (t.args w.mem.id).from.key ∧ (B (t.call w.mem.id).ledger).bal x ≤ L.bal x + (B (t.call w.mem.id).ledger).allow x w.minting := by
  have S := (bankInv h).intact (t.call w.mem.id).ledger
  generalize B (t.call w.mem.id).ledger = L0 at hd hx S ⊢
  have hs : (t.args w.mem.id).spender = none ∨ (t.args w.mem.id).spender.map Account.key = some w.minting := by
    cases t <;> first | exact .inl rfl | exact .inr rfl
  have allowed : ∀ {a : AccountKey} {n : Nat}, a = x → n ≠ 0 → n ≤ L0.bal a → (t.args w.mem.id).spender ≠ none →
      L0.Allows ((t.args w.mem.id).spender.map Account.key) a n → n ≤ L0.allow x w.minting := by
    intro a n ha hn hb hne hal
    rcases hs with hs | hs
    · exact absurd hs hne
    · rw [hs] at hal
      rcases hal with e | hal
      · rw [← e, show L0.bal w.minting = 0 from S.minting] at hb
        omega
      · exact ha ▸ hal
  have hsp : (t.args w.mem.id).spender = none → (t.args w.mem.id).from.key = w.minting := by
    cases t <;> intro e <;> first | rfl | cases e
  cases hd with
  | mint h1 h2 h3 => exact absurd hx (Nat.not_lt.2 (credit_le _ _ _))
  | burn h1 h2 h3 h4 =>
    have hx : Icrc.debit L0.bal _ _ x < L0.bal x := hx
    by_cases e : x = (t.args w.mem.id).from.key
    · refine ⟨e, ?_⟩
      have := allowed e.symm h2 h3 (fun hn => by
        rw [hsp hn, show L0.bal w.minting = 0 from S.minting] at h3; omega) h4
      show _ ≤ Icrc.debit L0.bal _ _ x + _
      unfold Icrc.debit
      rw [if_pos e]
      omega
    · rw [debit_other e] at hx; omega
  | move fee c h1 h2 h3 h4 h5 =>
    by_cases e : x = (t.args w.mem.id).from.key
    · refine ⟨e, ?_⟩
      have hle : Icrc.debit L0.bal (t.args w.mem.id).from.key ((t.args w.mem.id).amount + fee) x ≤ _ :=
        Nat.le_trans (credit_le _ _ _) (collect_le (f := Icrc.credit (Icrc.debit L0.bal (t.args w.mem.id).from.key ((t.args w.mem.id).amount + fee))
          (t.args w.mem.id).to.key (t.args w.mem.id).amount) c x fee)
      have hd : Icrc.debit L0.bal (t.args w.mem.id).from.key ((t.args w.mem.id).amount + fee) x = L0.bal x - ((t.args w.mem.id).amount + fee) := by
        unfold Icrc.debit
        rw [if_pos e]
      by_cases h0 : (t.args w.mem.id).amount + fee = 0
      · have : L0.bal x ≤ _ := Nat.le_trans (by rw [hd]; omega) hle
        exact absurd hx (Nat.not_lt.2 this)
      · have := allowed e.symm h0 h4 (fun hn => h1 (hsp hn)) h5
        show _ ≤ Icrc.collect _ c fee x + _
        omega
    · have hle : L0.bal x ≤ _ := Nat.le_trans (Nat.le_of_eq (debit_other (f := L0.bal) (n := (t.args w.mem.id).amount + fee) e).symm)
        (Nat.le_trans (credit_le _ _ _) (collect_le (f := Icrc.credit (Icrc.debit L0.bal (t.args w.mem.id).from.key ((t.args w.mem.id).amount + fee))
          (t.args w.mem.id).to.key (t.args w.mem.id).amount) c x fee))
      exact absurd hx (Nat.not_lt.2 hle)

/-- **C75.** All accounts of a ledger together hold at most what was minted and not burned. -/
theorem C75_supply (h : Banked w B) (ledger : Principal) :
    w.burned ledger ≤ w.minted ledger ∧ ∀ l : List AccountKey, l.Nodup → (l.map (B ledger).bal).sum + w.burned ledger ≤ w.minted ledger := by
  obtain ⟨h1, h2⟩ := (bankInv h).supply ledger
  exact ⟨h1, fun l hl => by have := h2 l hl; omega⟩

/-- **C75.** No block of a ledger mints to the minting account, burns nothing, or takes anything from an account of the minter. -/
theorem C75_kept (h : Banked w B) {b : Block} (hb : b ∈ w.blocks) : Kept w.mem.id b.call.op := (bankInv h).kept b hb

/-- **C75** (finding). No ledger executes a refund of fees: a transfer from an account of the minter, such as the fee account, moves 0. -/
theorem C75_no_refund (h : Banked w B) {b : Block} (hb : b ∈ w.blocks) {a c : Account} {n : Nat} (ho : b.call.op = .transfer a c n)
    (ha : a.owner = w.mem.id) : n = 0 := by
  have := C75_kept h hb
  rw [ho] at this
  exact this ha

/-- **C75** (finding). What is on an account of the minter stays there: no step takes anything away, so the fees that the minter collects
cannot be used. -/
theorem C75_stuck (h : Banked w B) {w' : World} {B' : Bank} (hs : BankStep w B w' B') (ledger : Principal) (sub : Subaccount) :
    (B ledger).bal (w.mem.id, sub) ≤ (B' ledger).bal (w'.mem.id, sub) := by
  have I := bankInv h
  have set : ∀ {l : Principal} {L : Icrc}, (B l).bal (w.mem.id, sub) ≤ L.bal (w.mem.id, sub) →
      (B ledger).bal (w.mem.id, sub) ≤ ((B.set l L) ledger).bal (w.mem.id, sub) := by
    intro l L hl
    unfold Bank.set
    split
    · rename_i e; rw [e]; exact hl
    · exact Nat.le_refl _
  cases hs with
  | minter _ _ hs _ => rw [(Step.grows h.reachable hs).id]; exact Nat.le_refl _
  | execute _ pre post id t L ht hh hd =>
    refine set ((I.intact _).keeps hd ?_ ?_ sub)
    · intro hs ha
      cases t <;> first | rfl | cases hs
    · intro k hk ha
      have : k = (w.mem.id, 0) := by cases t <;> cases hk <;> rfl
      rw [this]
      by_cases e : (t.args w.mem.id).from.key = (w.mem.id, 0)
      · exact .inr e
      · exact .inl (Ne.symm e)
  | transfer _ l p a b n memo L hp ha hd =>
    exact set ((I.intact _).keeps hd (fun _ e => absurd (ha ▸ e) hp) (fun k hk => by cases hk) sub)
  | transferFrom _ l p s a b n memo L hp ha hd =>
    refine set ((I.intact _).keeps hd (fun hk => by cases hk) (fun k hk e => .inl ?_) sub)
    cases hk
    intro e'
    exact hp (ha ▸ (congrArg Prod.fst e').trans e)
  | approve _ l p a s n fee hp ha hf =>
    refine set (Nat.le_of_eq (debit_other ?_).symm)
    exact fun e => hp (ha ▸ (congrArg Prod.fst e).symm)

/-- **C75** (finding). A withdrawal of native tokens that failed after its fee was taken does not get the fee back: the refund is refused by
the ledger, as the minter has no allowance for its own fee account. -/
theorem C75_fee_kept (h : Banked w B) {id : Nat} {caller : Principal} {amount : Nat} {recipient : List Char} {o : Outcome}
    (hs : (id, .withdrawNative caller amount recipient) ∈ w.started) (hf : (id, o) ∈ w.finished)
    (ho : o = .trapped ∨ ∃ e, o = .replied (some (.native (.error e)))) :
    w.callsOf id = [] ∨ ∃ (w₀ : World) (fee : Nat), Arrived w₀ w id ∧ w₀.mem.m.st.withdrawalNativeFee = some fee ∧
      w.taken id w.mem.m.st.nativeLedgerId ⟨caller, none⟩ w₀.mem.m.st.nativeLedgerTransferFee = fee ∧
      w.given id w.mem.m.st.nativeLedgerId ⟨caller, none⟩ = 0 := by
  rcases C31_loss_partial h.reachable hs hf ho with h0 | ⟨w₀, fee, h1, h2, h3, h4⟩
  · exact .inl h0
  · refine .inr ⟨w₀, fee, h1, h2, h3, ?_⟩
    rcases h4 with ⟨h4, _⟩ | h4
    · exact h4
    -- the blocks of the message are burns, and transfers to and from the fee account
    have hn := native_story h.reachable hs hf
    have : NativeFailed w id caller amount recipient (w.blocksOf id) := by
      rcases ho with rfl | ⟨e, rfl⟩ <;> exact hn.2
    rcases this with h0 | ⟨q, hq, h0 | ⟨fee, t, hfe, hft, h0 | ⟨e, h0⟩⟩⟩
    · simp [World.given, World.callsOf, h0]
    · simp [World.given, World.callsOf, h0]
    · simp [World.given, World.callsOf, h0, blk, LedgerTask.call, LedgerOp.credit]
    · have hm : blk w id (.nativeRefund q w.mem.m.st.nativeLedgerId (refundAmount fee q.transferFee) e) ∈ w.blocks := by
        have : blk w id (.nativeRefund q w.mem.m.st.nativeLedgerId (refundAmount fee q.transferFee) e) ∈ w.blocksOf id := by rw [h0]; simp
        exact (List.mem_filter.1 this).1
      have hz : refundAmount fee q.transferFee = 0 := C75_kept h hm rfl
      simp [World.given, World.callsOf, h0, blk, LedgerTask.call, LedgerOp.credit, hz]

/-! ## What follows for withdrawals and reserves -/

omit [Keccak] in
theorem burn_le {w : World} {b : Block} (hb : b ∈ w.blocks) : b.call.burns ≤ w.burned b.call.ledger :=
  le_sum_of_mem (List.mem_map.2 ⟨b, List.mem_filter.2 ⟨hb, by simp⟩, rfl⟩)

/-- **C75.** Recorded withdrawals are not of 0, and burned no more than was minted on the ledger. -/
theorem C75_amounts (h : Banked w B) :
    (∀ r, .acceptedNativeWithdrawalRequest r ∈ w.mem.m.log → 0 < r.withdrawalAmount ∧ r.withdrawalAmount ≤ w.minted w.mem.m.st.nativeLedgerId) ∧
    (∀ r, .acceptedErc20WithdrawalRequest r ∈ w.mem.m.log → 0 < r.withdrawalAmount ∧ r.withdrawalAmount ≤ w.minted r.erc20LedgerId ∧
      0 < r.maxTransactionFee ∧ r.maxTransactionFee ≤ w.minted w.mem.m.st.nativeLedgerId) := by
  have key : ∀ {l : Principal} {i id : Nat} {t : LedgerTask} {a : Account} {n : Nat}, MadeBy w l i id t → (t.call w.mem.id).op = .burn a n →
      0 < n ∧ n ≤ w.minted l := by
    intro l i id t a n hm ho
    have hb : (⟨t.call w.mem.id, some (id, t)⟩ : Block) ∈ w.blocks := (List.mem_filter.1 (List.mem_of_getElem? hm.1)).1
    have hk := C75_kept h hb
    have h1 := burn_le hb
    have h2 := (C75_supply h l).1
    simp only [hm.2.1, LedgerCall.burns, ho] at h1
    rw [show (⟨t.call w.mem.id, some (id, t)⟩ : Block).call.op = .burn a n from ho] at hk
    exact ⟨hk.1, Nat.le_trans h1 h2⟩
  refine ⟨fun r hr => ?_, fun r hr => ?_⟩
  · obtain ⟨id, _, q, now, _, hm⟩ := log_backed h.reachable hr (by simp [Event.origin])
    exact key hm rfl
  · obtain ⟨id, _, q, now, he, _, hm, hm'⟩ := log_backed h.reachable hr (by simp [Event.origin])
    have e1 : r.maxTransactionFee = q.txFee := by rw [he]; rfl
    have e2 : r.withdrawalAmount = q.amount := by rw [he]; rfl
    obtain ⟨k1, k2⟩ := key hm rfl
    obtain ⟨k3, k4⟩ := key hm' rfl
    rw [e1, e2]
    exact ⟨k3, k4, k1, k2⟩

/-- Burns are small if mints are. -/
theorem burnsSmall_of_banked (h : Banked w B) (hm : w.minted w.mem.m.st.nativeLedgerId < 2 ^ 256 - 1) : BurnsSmall w.mem.m.log := by
  obtain ⟨h1, h2⟩ := C75_amounts h
  exact ⟨fun r hr => Nat.lt_of_le_of_lt (h1 r hr).2 hm, fun r hr => Nat.lt_of_le_of_lt (h2 r hr).2.2.2 hm⟩

/-- **C75.** C60 without assumptions about amounts: truthful receipts of mined transactions are recorded. -/
theorem C75_finalized (h : Banked w B) (hn : NonceNeverLowered w.mem.m.log)
    (hreg : w.mem.m.st.erc20Tokens.getEntry w.mem.m.st.nativeLedgerId = none)
    (hlt : w.minted w.mem.m.st.nativeLedgerId < 2 ^ 256 - 1)
    {id : Nat} {f : FMap Hash LedgerBurnIndex} {o : Option LedgerAnswer} (hp : ⟨id, .ext (.retrieveReceipts f), o⟩ ∈ w.tasks)
    {ans : Hash → Minter.ReceiptResult} (ha : Mined w.mem.m.st f ans) (now : Nat) :
    ∃ c, (ExtTask.retrieveReceipts f).resume w.mem now (.receipts (f.keys.map ans)) = some (.ok (c, .finish none)) ∧
      c = ({ w.mem with m := c.m }).release .retrieveEth ∧
      (∀ hash i r, f.get hash = some i → ans hash = .ok (some r) →
        ∃ fin, c.m.st.txs.finalized.getAlt i = some fin ∧ fin.receipt = r ∧ fin.signed.hash = hash) ∧
      (∀ hash i, f.get hash = some i → c.m.st.txs.sent.getAlt i = none) ∧
      (∀ i, (∀ hash, f.get hash ≠ some i) → c.m.st.txs.sent.getAlt i = w.mem.m.st.txs.sent.getAlt i ∧
        c.m.st.txs.finalized.getAlt i = w.mem.m.st.txs.finalized.getAlt i) := by
  refine C60_finalized h.reachable hn hreg (C75_supply h _).1 (fun l _ _ _ => (C75_supply h l).1)
    (Nat.lt_of_le_of_lt (C75_supply h _).1 hlt) hp ha (fun hash i q _ hq => ?_) now
  exact ((C75_amounts h).2 q ((known_of_tracks (tracks h.reachable)).processed hq).2).1

/-- **C75.** At every moment: what the holders of native twin tokens hold, together with all that is owed, is covered by the balance of the
minter's address on the chain. -/
theorem C75_native_covered {minter helper : Address} {good : Address → Prop} {v : Evm} (h : Joint minter helper good w v) (hB : Banked w B)
    (hn : NonceNeverLowered w.mem.m.log) (hm : w.minted w.mem.m.st.nativeLedgerId < 2 ^ 256 - 1) (hc : NoCollision w.mem.m.log)
    (hreg : w.mem.m.st.erc20Tokens.getEntry w.mem.m.st.nativeLedgerId = none) {l : List AccountKey} (hl : l.Nodup) :
    (l.map (B w.mem.m.st.nativeLedgerId).bal).sum + total (v.chain.nativeOwed w) w.mem.m.log ≤ v.acc.native minter := by
  have h1 := C64_native_reserve h hn (burnsSmall_of_banked hB hm) hc hreg
  have h2 := (C75_supply hB w.mem.m.st.nativeLedgerId).2 l hl
  omega

/-- **C75.** The same for tokens with good contracts. -/
theorem C75_token_covered {minter helper : Address} {good : Address → Prop} {v : Evm} (h : Joint minter helper good w v) (hB : Banked w B)
    (hn : NonceNeverLowered w.mem.m.log) (hc : NoCollision w.mem.m.log) {ledger : Principal} {c : Address} {sym : String}
    (hreg : w.mem.m.st.erc20Tokens.getEntry ledger = some (c, sym)) (hne : ledger ≠ w.mem.m.st.nativeLedgerId) (hg : good c)
    {l : List AccountKey} (hl : l.Nodup) :
    (l.map (B ledger).bal).sum + total (v.chain.tokenOwed w ledger) w.mem.m.log ≤ v.acc.tokens c minter := by
  have h1 := C64_token_reserve h hn hc hreg hne hg
  have h2 := (C75_supply hB ledger).2 l hl
  omega

/-- **C75.** Whatever transactions are on their way can be paid for (C65, without its assumption about burns). -/
theorem C75_native_funded {minter helper : Address} {good : Address → Prop} {v : Evm} (h : Joint minter helper good w v) (hB : Banked w B)
    (hn : NonceNeverLowered w.mem.m.log) (hm : w.minted w.mem.m.st.nativeLedgerId < 2 ^ 256 - 1) (hc : NoCollision w.mem.m.log)
    (hreg : w.mem.m.st.erc20Tokens.getEntry w.mem.m.st.nativeLedgerId = none) {l : List Tx}
    (hl : ∀ tx ∈ l, ∃ e ∈ w.mem.m.log, ∃ i, recordedFor e = some (i, tx)) (hd : (l.map Tx.nonce).Nodup)
    (hs : ∀ tx ∈ l, ∀ f ∈ v.mined, f.signed.tx.nonce ≠ tx.nonce) : (l.map Tx.maxCost).sum ≤ v.acc.native minter :=
  C65_native_funded h hn (burnsSmall_of_banked hB hm) hc hreg (C75_supply hB _).1 hl hd hs

/-- **C75.** The same for the tokens they move. -/
theorem C75_token_funded {minter helper : Address} {good : Address → Prop} {v : Evm} (h : Joint minter helper good w v) (hB : Banked w B)
    (hn : NonceNeverLowered w.mem.m.log) (hc : NoCollision w.mem.m.log) {ledger : Principal} {c : Address} {sym : String}
    (hreg : w.mem.m.st.erc20Tokens.getEntry ledger = some (c, sym)) (hne : ledger ≠ w.mem.m.st.nativeLedgerId) (hg : good c) {l : List Tx}
    (hl : ∀ tx ∈ l, ∃ e ∈ w.mem.m.log, ∃ i, recordedFor e = some (i, tx)) (hd : (l.map Tx.nonce).Nodup)
    (hs : ∀ tx ∈ l, ∀ f ∈ v.mined, f.signed.tx.nonce ≠ tx.nonce) : (l.map (Tx.tokensOf c)).sum ≤ v.acc.tokens c minter :=
  C65_token_funded h hn hc hreg hne hg (C75_supply hB _).1 hl hd hs

end

namespace Example
attribute [local instance] keccak

/-- The actions of an execution in which the ledgers execute all calls and take a fee of `fee` for transfers. -/
def banked (fee : Nat) (l : List Action) : List BankAction := l.map fun
  | .execute k => .execute k fee
  | a => .other (.minter a)

def account (p : Principal) : Account := ⟨p, none⟩
def feeAccount : Account := ⟨minter, some feesSubaccount⟩

/-- Alice deposits native tokens and tokens, and they are minted. She allows the minter to take what is needed for one withdrawal of
each, sends 50 tokens to bob, and withdraws. A third withdrawal pays its fee, then the allowance is too small for the burn; the ledger
refuses the refund, too. -/
def bankActions : List BankAction :=
  [.other (.deposit (aliceDeposit 6000000000 0 0) 101 ⟨0x21, 3⟩), .other (.deposit (aliceDeposit 0 usdc 1000) 101 ⟨0x21, 4⟩)] ++
  banked 10 (sending.take 11) ++
  [.approve ledger (account alice) (account minter) 5002730400 10, .approve usdcLedger (account alice) (account minter) 700 1,
    .transfer usdcLedger (account alice) (account bob) 50 1] ++
  banked 10 (sending.drop 11 |>.take 12) ++
  [.other (.minter (.start (.withdrawNative alice 5000000000 to) 31)), .execute 0 10, .other (.minter (.deliver 0 32)),
    .other (.minter (.refuse 0 (.insufficientAllowance 0))), .other (.minter (.deliver 0 33)),
    .other (.minter (.refuse 0 (.insufficientAllowance 0))), .other (.minter (.deliver 0 34))]

/-- The hypotheses of C75 hold at the end: the holders of native twin tokens, alice and the fee account, have 997269740 + 320, and with
the 5002729900 that are owed this is below the 6000000000 at the minter's address; tokens likewise. The third withdrawal failed, and its
fee stays in the fee account. -/
theorem C75_example : ∃ w v B, Joint 0xa11ce 0xcafe (fun c => c = usdc) w v ∧ Banked w B ∧ decide (
    v.chain.agreesWith w.mem.m.log = true ∧ w.mem.m.st.nativeLedgerId = ledger ∧ w.mem.m.st.erc20Tokens.getEntry ledger = none ∧
    w.mem.m.st.erc20Tokens.getEntry usdcLedger = some (usdc, "ckUSDC") ∧
    w.finished.map (·.2) = [.replied none, .replied none, .replied none, .replied (some (.native (.ok 4))),
      .replied (some (.erc20 (.ok (6, 3)))), .replied (some (.native (.error (.insufficientAllowance 0))))] ∧
    (B ledger).bal (account alice).key = 997269740 ∧ (B ledger).bal feeAccount.key = 320 ∧
    w.minted ledger = 6000000000 ∧ w.burned ledger = 5002729900 ∧ total (v.chain.nativeOwed w) w.mem.m.log = 5002729900 ∧
    v.acc.native 0xa11ce = 6000000000 ∧
    (B usdcLedger).bal (account alice).key = 248 ∧ (B usdcLedger).bal (account bob).key = 50 ∧
    w.minted usdcLedger = 1000 ∧ w.burned usdcLedger = 700 ∧ total (v.chain.tokenOwed w usdcLedger) w.mem.m.log = 700 ∧
    v.acc.tokens usdc 0xa11ce = 1000 ∧
    w.taken 5 ledger (account alice) 10 = 100 ∧ w.given 5 ledger (account alice) = 0) = true :=
  bankAfter_ok (addr := 0xa11ce) (helper := 0xcafe) (t := usdc) (arg := initArg) (acc := funded) (nonce := 5) (l := bankActions)
    (by decide +kernel)

end Example
end EvmMinter
