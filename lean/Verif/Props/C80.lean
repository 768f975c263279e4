import Verif.Model.Search
import Verif.Props.C33
import Verif.Props.C44
import Verif.Lemmas.Refine
import Verif.Lemmas.Truth
import Verif.Props.C30
/-!
# C80: users find their withdrawals

`withdrawal_status` lists the withdrawals with a given number, recipient or sender.

The claim fails for one spelling of the sender: the standard of the ledgers (ICRC-1) has two names for the default account of
a principal, without subaccount and with the subaccount of 32 zero bytes. All withdrawals are from default accounts, but only
the first name finds them (`C80_zeros`). So `C80_search_partial` asks that a sender is not given with the zero subaccount.
-/

namespace EvmMinter
open Spec

section
variable [Keccak]

/-- Two accounts are the same (ICRC-1): the default subaccount is 32 zero bytes. -/
def Spec.SameAccount (a b : Account) : Prop := a.owner = b.owner ∧ a.subaccount.getD 0 = b.subaccount.getD 0

/-- The search asks for the request. -/
def Spec.AsksFor (r : Request) : SearchArg → Prop
  | .byWithdrawalId i => (match r with | .native q => q.ledgerBurnIndex | .erc20 q => q.nativeLedgerBurnIndex) = i
  | .byRecipient t => ∃ digits, HexString 40 t digits ∧ (match r with | .native q => q.destination | .erc20 q => q.destination) = base16 digits
  | .bySenderAccount a => SameAccount a (match r with | .native q => ⟨q.from, q.fromSubaccount⟩ | .erc20 q => ⟨q.from, q.fromSubaccount⟩)

/-- Requests are from default accounts, written without subaccount. -/
theorem request_default {w : World} (h : Reachable w) {r : Request} (hr : r.intoEvent ∈ w.mem.m.log) : r.fromSubaccount = none := by
  cases r with
  | native q =>
    obtain ⟨id, _, q', now, e, _⟩ := log_backed h hr (by simp [Request.intoEvent, Event.origin])
    show q.fromSubaccount = none
    rw [e]
  | erc20 q =>
    obtain ⟨id, _, q', now, e, _⟩ := log_backed h hr (by simp [Request.intoEvent, Event.origin])
    show q.fromSubaccount = none
    rw [e]; rfl

/-- **C80** (full statement, false because of `C80_zeros`, without `hz`): at any time the query `withdrawal_status` lists exactly the
accepted withdrawals asked for, each once, with its actual data and status and the recipient as an address with checksum. It
fails only if asked for a recipient that is not `0x` and 40 hexadecimal digits. -/
theorem C80_search_partial {w : World} (h : Reachable w) (hn : NonceNeverLowered w.mem.m.log) (arg : SearchArg)
    (hz : ∀ a, arg = .bySenderAccount a → a.subaccount ≠ some 0) :
    ((∃ e, w.mem.m.st.searchWithdrawals arg = .error e) ↔ ∃ t, arg = .byRecipient t ∧ ¬ ∃ digits, HexString 40 t digits) ∧
    ∀ l, w.mem.m.st.searchWithdrawals arg = .ok l →
      (l.map (·.1.withdrawalId)).Nodup ∧
      (∀ d ∈ l, ∃ r : Request, r.intoEvent ∈ w.mem.m.log ∧ AsksFor r arg ∧ Describes w.mem.m.log w.mem.m.st r d.1 ∧
        d.2 = (match r with | .native q => q.destination | .erc20 q => q.destination : Address).display) ∧
      (∀ r : Request, r.intoEvent ∈ w.mem.m.log → AsksFor r arg → ∃ d ∈ l, Describes w.mem.m.log w.mem.m.st r d.1) := by
  have R := run_of_reachable h hn
  have parsed : ∀ p, arg.parse = some p → ∀ r : Request, r.intoEvent ∈ w.mem.m.log → (Matches r p ↔ AsksFor r arg) := by
    intro p hp r hr
    have hd := request_default h hr
    cases arg with
    | byWithdrawalId i =>
      cases Option.some.inj hp
      cases r <;> rfl
    | byRecipient t =>
      cases ha : Address.parse t with
      | none => simp [SearchArg.parse, ha] at hp
      | some a =>
        simp only [SearchArg.parse, ha, Option.map_some, Option.some.injEq] at hp
        subst hp
        obtain ⟨ds, h1, h2⟩ := C44_parse.1 ha
        constructor
        · intro hm
          exact ⟨ds, h1, by rw [← h2]; cases r <;> exact hm⟩
        · rintro ⟨ds', h1', h2'⟩
          have : a = base16 ds' := Option.some.inj (ha.symm.trans (C44_parse.2 ⟨ds', h1', rfl⟩))
          rw [← this] at h2'
          cases r <;> exact h2'
    | bySenderAccount a =>
      cases Option.some.inj hp
      have hz := hz a rfl
      have key : ∀ o : Option Subaccount, o = none → (o = a.subaccount ↔ a.subaccount.getD 0 = o.getD 0) := by
        rintro _ rfl
        cases hs : a.subaccount with
        | none => simp
        | some x =>
          rw [hs] at hz
          have : x ≠ 0 := fun e => hz (by rw [e])
          simp [this]
      cases r with
      | native q => exact and_congr eq_comm (key _ hd)
      | erc20 q => exact and_congr eq_comm (key _ hd)
  have bad : arg.parse = none ↔ ∃ t, arg = .byRecipient t ∧ ¬ ∃ digits, HexString 40 t digits := by
    cases arg with
    | byWithdrawalId i => simp [SearchArg.parse]
    | bySenderAccount a => simp [SearchArg.parse]
    | byRecipient t =>
      rw [SearchArg.parse, Option.map_eq_none_iff]
      constructor
      · intro ha
        exact ⟨t, rfl, fun ⟨ds, hd⟩ => by rw [C44_parse.2 ⟨ds, hd, rfl⟩] at ha; cases ha⟩
      · rintro ⟨t', e, hno⟩
        cases e
        cases ha : Address.parse t with
        | none => rfl
        | some a => obtain ⟨ds, hd, _⟩ := C44_parse.1 ha; exact absurd ⟨ds, hd⟩ hno
  cases hp : arg.parse with
  | none =>
    have e : w.mem.m.st.searchWithdrawals arg = .error "called `Result::unwrap()` on an `Err` value" := by
      unfold State.searchWithdrawals; rw [hp]; rfl
    refine ⟨⟨fun _ => bad.1 hp, fun _ => ⟨_, e⟩⟩, ?_⟩
    intro l hl; rw [e] at hl; cases hl
  | some p =>
    obtain ⟨l, h1, h2, h3, h4⟩ := C33_withdrawal_details R hn p
    have e : w.mem.m.st.searchWithdrawals arg = .ok (l.map fun d => (d, d.recipient.display)) := by
      unfold State.searchWithdrawals; rw [hp]
      show (do let l ← w.mem.m.st.withdrawalStatus p; return l.map fun d => (d, d.recipient.display) : Res _) = _
      rw [h1]; rfl
    refine ⟨⟨fun ⟨_, he⟩ => (by rw [e] at he; cases he), fun hb => (by rw [bad.2 hb] at hp; cases hp)⟩, ?_⟩
    intro l' hl
    rw [e, Except.ok.injEq] at hl
    subst hl
    refine ⟨by rw [List.map_map]; exact h2, ?_, ?_⟩
    · intro d hd
      obtain ⟨d', hd', rfl⟩ := List.mem_map.1 hd
      obtain ⟨r, g1, g2, g3⟩ := h3 d' hd'
      refine ⟨r, g1, (parsed p hp r g1).1 g2, g3, congrArg Address.display ?_⟩
      have := g3.recipient
      cases r <;> exact this
    · intro r hr ha
      obtain ⟨d, hd, g⟩ := h4 r hr ((parsed p hp r hr).2 ha)
      exact ⟨_, List.mem_map_of_mem hd, g⟩

/-- **C80** fails: the second name of a default account finds nothing, ever. -/
theorem C80_zeros {w : World} (h : Reachable w) (hn : NonceNeverLowered w.mem.m.log) (owner : Principal) (x : Subaccount) :
    w.mem.m.st.searchWithdrawals (.bySenderAccount ⟨owner, some x⟩) = .ok [] := by
  obtain ⟨l, h1, _, h3, _⟩ := C33_withdrawal_details (run_of_reachable h hn) hn (.bySenderAccount owner (some x))
  have hl : l = [] := by
    cases l with
    | nil => rfl
    | cons d t =>
      obtain ⟨r, hr, hm, _⟩ := h3 d (by simp)
      have hd := request_default h hr
      cases r with
      | native q => cases (show q.fromSubaccount = none from hd).symm.trans (show q.fromSubaccount = some x from hm.2)
      | erc20 q => cases (show q.fromSubaccount = none from hd).symm.trans (show q.fromSubaccount = some x from hm.2)
  unfold State.searchWithdrawals
  show (do let l ← w.mem.m.st.withdrawalStatus (.bySenderAccount owner (some x)); return l.map fun d => (d, d.recipient.display) : Res _) = _
  rw [h1, hl]; rfl

end

namespace Example

/-- Bob withdraws; the search by the number, by the recipient in upper case and by bob's account finds the withdrawal, the search by
the other name of the account does not, and a text that is not an address is refused. -/
theorem C80_example : ∃ w, Reachable w ∧ ((
    (match w.mem.m.st.searchWithdrawals (.bySenderAccount ⟨bob, none⟩) with
      | .ok [d] => decide (d.1.withdrawalId = 1 ∧ d.1.withdrawalAmount = 4999999900 ∧ d.1.status = .pending)
      | _ => false) &&
    (match w.mem.m.st.searchWithdrawals (.byRecipient "0x000000000000000000000000000000000000BeEF".toList) with
      | .ok [d] => decide (d.1.withdrawalId = 1 ∧ d.1.recipient = 0xbeef)
      | _ => false) &&
    (match w.mem.m.st.searchWithdrawals (.bySenderAccount ⟨bob, some 0⟩) with
      | .ok l => decide (l = [])
      | .error _ => false) &&
    (match w.mem.m.st.searchWithdrawals (.byRecipient "0xbeef".toList) with
      | .ok _ => false
      | .error _ => true)) = true) :=
  after_reachable (arg := initArg) (l := [.start (.withdrawNative bob 5000000000 to) 6, .execute 0, .deliver 0 7, .execute 0, .deliver 0 8])
    (by decide +kernel)

end Example
end EvmMinter
