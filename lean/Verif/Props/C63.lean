import Verif.Spec.Evm
import Verif.Props.C11
/-!
# C63: the helper contract passes on what it takes and logs exactly that
-/

namespace EvmMinter
open Spec Helper

theorem transfer_ok {f g : Address → Nat} {a b : Address} {n : Nat} (h : transfer f a b n = some g) :
    n ≤ f a ∧ (a ≠ b → g a + n = f a ∧ g b = f b + n) ∧ (a = b → g = f) ∧ ∀ x, x ≠ a → x ≠ b → g x = f x := by
  unfold transfer at h
  split at h
  · rename_i hn
    simp only [Option.some.injEq] at h
    subst h
    refine ⟨hn, fun hab => ?_, fun hab => ?_, fun x ha hb => ?_⟩
    · simp only [update, if_neg hab, if_neg (Ne.symm hab), if_true]
      exact ⟨by omega, trivial⟩
    · subst hab
      funext x
      simp only [update, if_true]
      split
      · rename_i hx; subst hx; omega
      · rfl
    · simp only [update, if_neg ha, if_neg hb]
  · cases h

theorem pay_ok {s s' : Accounts} {a b : Address} {n : Nat} (h : s.pay a b n = some s') :
    transfer s.native a b n = some s'.native ∧ s'.tokens = s.tokens := by
  simp only [Accounts.pay, Option.map_eq_some_iff] at h
  obtain ⟨f, h1, rfl⟩ := h
  exact ⟨h1, rfl⟩

/-- The two ways through `deposit`. -/
theorem deposit_ok {minter helper : Address} {env : Callees} {c : Call} {s s' : Accounts} {x : DepositLog}
    (h : Helper.deposit minter helper env c s = some (s', x)) :
    ∃ s₁, s.pay c.sender helper c.value = some s₁ ∧
      ((0 < c.value ∧ s₁.pay helper minter c.value = some s' ∧ x = ⟨c.sender, 0, c.value, c.principal, c.subaccount⟩) ∨
        (c.value = 0 ∧ s₁ = s ∧ env.transferFrom c.token c.sender minter c.amount s = some s' ∧
          x = ⟨c.sender, c.token, c.amount, c.principal, c.subaccount⟩)) := by
  unfold Helper.deposit at h
  split at h
  · cases h
  · rename_i s₁ h1
    refine ⟨s₁, h1, ?_⟩
    split at h
    · rename_i hv
      split at h
      · split at h
        · cases h
        · rename_i s₂ h2
          simp only [Option.some.injEq, Prod.mk.injEq] at h
          obtain ⟨rfl, rfl⟩ := h
          exact .inl ⟨hv, h2, rfl⟩
      · cases h
    · rename_i hv
      have hv : c.value = 0 := by omega
      have hs : s₁ = s := by
        obtain ⟨h2, h3⟩ := pay_ok h1
        have h4 := transfer_ok h2
        cases s; cases s₁
        simp only [Accounts.mk.injEq] at h3 ⊢
        refine ⟨?_, h3⟩
        by_cases hab : c.sender = helper
        · exact h4.2.2.1 hab
        · funext y
          have h5 := h4.2.1 hab
          rw [hv] at h5
          by_cases ha : y = c.sender
          · subst ha; exact h5.1
          · by_cases hb : y = helper
            · subst hb; exact h5.2
            · exact h4.2.2.2 y ha hb
      subst hs
      split at h
      · cases h
      · rename_i s₂ h2
        simp only [Option.some.injEq, Prod.mk.injEq] at h
        obtain ⟨rfl, rfl⟩ := h
        exact .inr ⟨hv, rfl, h2, rfl⟩

/-- **C63.** A call with value: the minter's address receives the value from the sender, all of it, and no other balance changes —
nothing stays with the helper contract, and the `token` and `amount` of the call are ignored. One event is emitted; it is a native
deposit of exactly the value by the sender, with principal and subaccount of the call. -/
theorem C63_native {minter helper : Address} {env : Callees} {c : Call} {s s' : Accounts} {x : DepositLog} (hv : 0 < c.value)
    (hs : c.sender ≠ minter) (h : Helper.deposit minter helper env c s = some (s', x)) :
    s'.native minter = s.native minter + c.value ∧ s'.native c.sender + c.value = s.native c.sender ∧
      (∀ a, a ≠ minter → a ≠ c.sender → s'.native a = s.native a) ∧ s'.tokens = s.tokens ∧
      x = ⟨c.sender, 0, c.value, c.principal, c.subaccount⟩ := by
  obtain ⟨s₁, h1, ⟨-, h2, rfl⟩ | ⟨h0, _⟩⟩ := deposit_ok h
  · obtain ⟨h1, h3⟩ := pay_ok h1
    obtain ⟨h2, h4⟩ := pay_ok h2
    obtain ⟨a1, a2, a3, a4⟩ := transfer_ok h1
    obtain ⟨b1, b2, b3, b4⟩ := transfer_ok h2
    refine ⟨?_, ?_, fun a ha hb => ?_, by rw [h4, h3], rfl⟩
    · by_cases hhm : helper = minter
      · subst hhm
        rw [b3 rfl]
        exact (a2 hs).2
      · rw [(b2 hhm).2]
        by_cases hsh : c.sender = helper
        · rw [a3 hsh]
        · rw [a4 minter (Ne.symm hs) (Ne.symm hhm)]
    · by_cases hsh : c.sender = helper
      · rw [a3 hsh] at b2
        have := b2 (hsh ▸ hs)
        rw [hsh]
        exact this.1
      · have : s'.native c.sender = s₁.native c.sender := by
          by_cases hhm : helper = minter
          · rw [b3 hhm]
          · exact b4 _ hsh hs
        rw [this]
        exact (a2 hsh).1
    · by_cases hhm : helper = minter
      · rw [b3 hhm]
        exact a4 a hb (by rw [hhm]; exact ha)
      · by_cases hah : a = helper
        · subst hah
          have := a2 (Ne.symm hb)
          have := b2 hhm
          omega
        · rw [b4 a hah ha]
          exact a4 a hb hah
  · omega

/-- **C63.** A call with value goes through if the sender has it and the minter's address takes payments. -/
theorem C63_native_accepted (minter helper : Address) (env : Callees) (c : Call) (s : Accounts) (hv : 0 < c.value)
    (hb : c.value ≤ s.native c.sender) (ht : env.minterTakes = true) :
    ∃ s' x, Helper.deposit minter helper env c s = some (s', x) := by
  have h1 : ∃ s₁, s.pay c.sender helper c.value = some s₁ := by
    simp only [Accounts.pay, transfer, if_pos hb, Option.map_some]
    exact ⟨_, rfl⟩
  obtain ⟨s₁, h1⟩ := h1
  have hb' : c.value ≤ s₁.native helper := by
    obtain ⟨h2, -⟩ := pay_ok h1
    obtain ⟨-, a2, a3, -⟩ := transfer_ok h2
    by_cases hsh : c.sender = helper
    · rw [a3 hsh, ← hsh]; exact hb
    · have := (a2 hsh).2; omega
  have h2 : ∃ s₂, s₁.pay helper minter c.value = some s₂ := by
    simp only [Accounts.pay, transfer, if_pos hb', Option.map_some]
    exact ⟨_, rfl⟩
  obtain ⟨s₂, h2⟩ := h2
  refine ⟨s₂, ⟨c.sender, 0, c.value, c.principal, c.subaccount⟩, ?_⟩
  simp only [Helper.deposit, h1, if_pos hv, ht, if_true, h2]

/-- **C63.** A call without value: for a standard token, the minter's address receives the amount from the sender, and no other balance
changes. One event is emitted, with token, amount, sender, principal and subaccount of the call. -/
theorem C63_token {minter helper : Address} {good : Address → Prop} {env : Callees} {c : Call} {s s' : Accounts} {x : DepositLog}
    (hv : c.value = 0) (he : Behaved minter good env) (hg : good c.token)
    (hs : c.sender ≠ minter) (h : Helper.deposit minter helper env c s = some (s', x)) :
    s'.tokens c.token minter = s.tokens c.token minter + c.amount ∧
      s'.tokens c.token c.sender + c.amount = s.tokens c.token c.sender ∧
      (∀ a, a ≠ minter → a ≠ c.sender → s'.tokens c.token a = s.tokens c.token a) ∧
      (∀ t, t ≠ c.token → s'.tokens t = s.tokens t) ∧ s'.native = s.native ∧
      x = ⟨c.sender, c.token, c.amount, c.principal, c.subaccount⟩ := by
  obtain ⟨s₁, h1, ⟨h0, _⟩ | ⟨-, rfl, h2, rfl⟩⟩ := deposit_ok h
  · omega
  · obtain ⟨g1, g2, g3⟩ := he.standard _ _ _ _ _ _ hg h2
    obtain ⟨-, a2, -, a4⟩ := transfer_ok g3
    exact ⟨(a2 hs).2, (a2 hs).1, fun a ha hb => a4 a hb ha, g2, g1, rfl⟩

/-- **C63.** For any token, the event is the one of the call, and the balances are those that the token contract left; the helper
contract adds nothing to them. -/
theorem C63_any_token {minter helper : Address} {env : Callees} {c : Call} {s s' : Accounts} {x : DepositLog} (hv : c.value = 0)
    (h : Helper.deposit minter helper env c s = some (s', x)) :
    env.transferFrom c.token c.sender minter c.amount s = some s' ∧ x = ⟨c.sender, c.token, c.amount, c.principal, c.subaccount⟩ := by
  obtain ⟨s₁, h1, ⟨h0, _⟩ | ⟨-, rfl, h2, rfl⟩⟩ := deposit_ok h
  · omega
  · exact ⟨h2, rfl⟩

/-- **C63.** What is emitted is what the minter expects of the contract (`DepositLog.Emittable`, C11). -/
theorem C63_emittable {minter helper : Address} {good : Address → Prop} {env : Callees} {c : Call} {s s' : Accounts} {x : DepositLog}
    (he : Behaved minter good env) (ht : c.Typed) (h : Helper.deposit minter helper env c s = some (s', x)) : x.Emittable := by
  obtain ⟨t1, t2, t3, t4, t5⟩ := ht
  obtain ⟨s₁, h1, ⟨h0, _, rfl⟩ | ⟨-, rfl, h2, rfl⟩⟩ := deposit_ok h
  · exact ⟨⟨t1, Nat.two_pow_pos _, t2, t5⟩, fun _ => h0⟩
  · refine ⟨⟨t1, t3, t4, t5⟩, fun h0 => ?_⟩
    simp only [] at h0
    rw [h0, he.zero] at h2; cases h2

/-- **C63.** From the contract to the minter: the log of a successful call, wherever it is included, is decoded to a deposit of what
the minter's address received — of the value of the call in native tokens, or else of the amount in the token of the call —
for the principal and the subaccount that the caller named, from the caller. -/
theorem C63_decoded {minter helper : Address} {good : Address → Prop} {env : Callees} {c : Call} {s s' : Accounts} {x : DepositLog}
    {e : LogEntry} {b : BlockNumber} {src : EventSource} {p : Principal} (he : Behaved minter good env) (ht : c.Typed)
    (h : Helper.deposit minter helper env c s = some (s', x)) (hm : MinedLog e b src x) (hp : c.principal.1 = principalWord p)
    (hc : Creditable p) :
    parseLog e = .ok (.ok (if 0 < c.value
      then .native { transactionHash := src.transactionHash, blockNumber := b, logIndex := src.logIndex, fromAddress := c.sender
                     value := c.value, principal := p, subaccount := if c.subaccount = 0 then none else some c.subaccount }
      else .erc20 { transactionHash := src.transactionHash, blockNumber := b, logIndex := src.logIndex, fromAddress := c.sender
                    value := c.amount, principal := p, erc20ContractAddress := c.token
                    subaccount := if c.subaccount = 0 then none else some c.subaccount })) := by
  have hE := C63_emittable he ht h
  obtain ⟨s₁, h1, ⟨h0, _, rfl⟩ | ⟨h0, rfl, h2, rfl⟩⟩ := deposit_ok h
  · rw [C11_faithful e _ b src p hm hE hp hc, if_pos h0]
    rfl
  · rw [C11_faithful e _ b src p hm hE hp hc, if_neg (by omega)]
    have : c.token ≠ 0 := by
      intro h0
      rw [h0, he.zero] at h2; cases h2
    simp only [DepositLog.deposit, if_neg this]

namespace Example

/-- Account 7 has 100 of everything; token 5 is a standard token, there are no other contracts. -/
def accounts : Accounts := ⟨fun a => if a = 7 then 100 else 0, fun _ a => if a = 7 then 100 else 0⟩

def callees : Callees :=
  ⟨true, fun t a b n s => if t = 5 then (transfer (s.tokens t) a b n).map fun f =>
    { s with tokens := fun c => if c = t then f else s.tokens c } else none⟩

theorem callees_behaved : Behaved 1 (fun c => c = 5) callees := by
  refine ⟨fun _ _ _ _ => rfl, ?_, ?_⟩
  · rintro c a b n s s' rfl h
    simp only [callees, if_true, Option.map_eq_some_iff] at h
    obtain ⟨f, h1, rfl⟩ := h
    refine ⟨rfl, fun c' hc => ?_, ?_⟩
    · simp only [if_neg hc]
    · simpa using h1
  · intro c a b n s s' hc h
    simp only [callees, if_neg hc] at h
    cases h

def aliceWord : Word32 := ⟨principalWord ⟨[1, 2, 3]⟩, by decide⟩

/-- A native deposit of 30, with a token and an amount that are ignored; a deposit of 30 of token 5; a deposit of a token that does
not exist, and one of more than the sender has. -/
theorem C63_example :
    ((Helper.deposit 1 2 callees ⟨7, 30, 5, 60, aliceWord, 0⟩ accounts).map fun r =>
      [r.1.native 1, r.1.native 7, r.1.native 2, r.1.tokens 5 1, r.2.token, r.2.amount]) = some [30, 70, 0, 0, 0, 30] ∧
    ((Helper.deposit 1 2 callees ⟨7, 0, 5, 60, aliceWord, 0⟩ accounts).map fun r =>
      [r.1.native 1, r.1.tokens 5 1, r.1.tokens 5 7, r.1.tokens 5 2, r.2.token, r.2.amount]) = some [0, 60, 40, 0, 5, 60] ∧
    (Helper.deposit 1 2 callees ⟨7, 0, 6, 60, aliceWord, 0⟩ accounts).isNone ∧
    (Helper.deposit 1 2 callees ⟨7, 0, 0, 60, aliceWord, 0⟩ accounts).isNone ∧
    (Helper.deposit 1 2 callees ⟨7, 0, 5, 101, aliceWord, 0⟩ accounts).isNone ∧
    (Helper.deposit 1 2 callees ⟨7, 101, 5, 1, aliceWord, 0⟩ accounts).isNone := by
  decide

end Example
end EvmMinter
