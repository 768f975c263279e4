import Verif.Spec.Evm
import Verif.Spec.ExampleWorld
/-!
# Playing concrete executions of the minter and the chain

Like Spec/ExampleWorld.lean, for `Joint`. There is one good token contract. Used for examples only.
-/

namespace EvmMinter
namespace Spec
open Helper

/-- A standard token contract at `t`, and no other contract. -/
def oneToken (t : Address) : Callees :=
  ⟨true, fun t' a b n s => if t' = t then (transfer (s.tokens t') a b n).map fun f =>
    { s with tokens := fun c => if c = t' then f else s.tokens c } else none⟩

theorem oneToken_behaved (minter t : Address) (ht : t ≠ 0) : Behaved minter (fun c => c = t) (oneToken t) := by
  refine ⟨fun a b n s => if_neg (Ne.symm ht), ?_, ?_⟩
  · rintro c a b n s s' rfl h
    simp only [oneToken, if_true, Option.map_eq_some_iff] at h
    obtain ⟨f, h1, rfl⟩ := h
    refine ⟨rfl, fun c' hc => ?_, ?_⟩
    · simp only [if_neg hc]
    · simpa using h1
  · intro c a b n s s' hc h
    simp only [oneToken, if_neg hc] at h
    cases h

/-- What a transaction of the minter's address does: it pays the fee, and moves the value or the tokens if it succeeds. -/
def settle (minter t : Address) (f : FinalizedTx) (s : Accounts) : Accounts :=
  { native := update s.native minter (s.native minter - (feePaid f + valueSent f))
    tokens := fun c => if c = t then update (s.tokens c) minter (s.tokens c minter - tokensSent t f) else s.tokens c }

theorem settle_effect (minter t : Address) (f : FinalizedTx) (s : Accounts) : Effect minter (fun c => c = t) f s (settle minter t f s) := by
  refine ⟨?_, ?_, ?_⟩
  · simp only [settle, update, if_true]; omega
  · rintro c rfl h
    have : tokensSent c f = 0 := by
      unfold tokensSent
      split
      · rename_i hs
        rw [if_neg]
        rintro ⟨h1, h2⟩
        rcases h with h | h | h
        · exact h h1
        · rw [hs] at h; cases h
        · exact h2 h
      · rfl
    simp [settle, update, this]
  · rintro c to value rfl hv hd
    have e2 : (transferCall to value).drop 36 = toBE 32 value := by
      unfold transferCall
      rw [List.drop_append_of_le_length (by simp [length_toBE])]
      rw [List.drop_of_length_le (by simp [length_toBE])]
      rfl
    have : tokensSent c f ≤ value := by
      unfold tokensSent
      split
      · split
        · rw [hd, e2, beNat_toBE, Nat.mod_eq_of_lt (by simpa using hv)]
          exact Nat.le_refl _
        · exact Nat.zero_le _
      · exact Nat.zero_le _
    simp only [settle, update, if_true]
    omega

/-- What happens next. -/
inductive JointAction where
  | minter (x : Action)
  | deposit (call : Call) (b : BlockNumber) (src : EventSource)
  | send (k : Nat) (x : SignedTx)
  | mine (f : FinalizedTx)

instance (e : LogEntry) (b : BlockNumber) (src : EventSource) (x : DepositLog) : Decidable (MinedLog e b src x) :=
  decidable_of_iff (e.blockNumber = some b ∧ e.transactionHash = some src.transactionHash ∧ e.logIndex = some src.logIndex ∧
    e.blockHash ≠ none ∧ e.transactionIndex ≠ none ∧ e.removed = false ∧ e.topics = x.topics ∧ e.data = x.data)
    ⟨fun ⟨h1, h2, h3, h4, h5, h6, h7, h8⟩ => ⟨h1, h2, h3, h4, h5, h6, h7, h8⟩,
      fun ⟨h1, h2, h3, h4, h5, h6, h7, h8⟩ => ⟨h1, h2, h3, h4, h5, h6, h7, h8⟩⟩

instance (c : Call) : Decidable c.Typed := by unfold Call.Typed; infer_instance

/-- `Evm.Tells`, evaluated. -/
def Evm.tells (v : Evm) : ExtAnswer → Bool
  | .logs (.logs l) => l.all fun e => v.logs.any fun x => decide (MinedLog e x.block x.src x.log)
  | .receipts l => l.all fun
    | .ok (some r) => v.mined.any fun f => f.receipt == r
    | _ => true
  | _ => true

theorem Evm.tells_iff {v : Evm} {a : ExtAnswer} (h : v.tells a = true) : v.Tells a := by
  cases a with
  | logs a =>
    cases a with
    | logs l =>
      intro e he
      have := List.all_eq_true.1 h e he
      obtain ⟨x, hx, hm⟩ := List.any_eq_true.1 this
      exact ⟨x, hx, of_decide_eq_true hm⟩
    | tooLarge => trivial
    | failed => trivial
  | receipts l =>
    intro r hr
    have := List.all_eq_true.1 h _ hr
    obtain ⟨f, hf, hm⟩ := List.any_eq_true.1 this
    exact ⟨f, hf, by simpa using hm⟩
  | _ => trivial

def _root_.EvmMinter.Event.claims : Event → Bool
  | .acceptedDeposit _ | .acceptedErc20Deposit _ | .finalizedTransaction _ _ => true
  | _ => false

theorem claims_of {e : Event} (h : e.Claims) : e.claims = true := by
  rcases h with ⟨d, hd⟩ | ⟨i, r, rfl⟩
  · cases e <;> first | rfl | cases hd
  · rfl

variable [Keccak]

/-- Carry out an action if it is possible. -/
def jointAct (minter helper t : Address) (x : World × Evm) : JointAction → Option (World × Evm)
  | .minter a =>
    match x.1.act a with
    | none => none
    | some w' =>
      if (w'.since x.1).all (fun e => !e.claims) then some (w', x.2)
      else
        match a with
        | .answer k a now =>
          match x.1.tasks[k]? with
          | some ⟨id, .ext task, _⟩ =>
            match task.resume x.1.mem now a with
            | some (.ok (c, n)) =>
              if x.2.tells a && decide a.Typed then some (x.1.advance (x.1.tasks.take k) (x.1.tasks.drop (k + 1)) id c n, x.2) else none
            | _ => none
          | _ => none
        | _ => none
  | .deposit call b src =>
    if call.Typed ∧ call.sender ≠ minter ∧ t ≠ 0 then
      match Helper.deposit minter helper (oneToken t) call x.2.acc with
      | none => none
      | some (s, l) => some (x.1, { x.2 with acc := s, logs := x.2.logs ++ [⟨b, src, l⟩] })
    else none
  | .send k y =>
    match x.1.tasks[k]? with
    | some ⟨_, .ext (.retrieveSend batch), _⟩ => if y ∈ batch then some (x.1, { x.2 with sent := x.2.sent ++ [y] }) else none
    | _ => none
  | .mine f =>
    if f.signed ∈ x.2.sent ∧ f.signed.tx.nonce = x.2.nonce ∧ f.receipt.gasUsed ≤ f.signed.tx.gasLimit ∧
        f.receipt.effectiveGasPrice ≤ f.signed.tx.maxFeePerGas ∧ f.receipt.transactionHash = f.signed.hash then
      some (x.1, { x.2 with acc := settle minter t f x.2.acc, nonce := x.2.nonce + 1, mined := x.2.mined ++ [f] })
    else none

theorem jointAct_joint {minter helper t : Address} {x y : World × Evm} {a : JointAction} (h : Joint minter helper (fun c => c = t) x.1 x.2)
    (ha : jointAct minter helper t x a = some y) : Joint minter helper (fun c => c = t) y.1 y.2 := by
  obtain ⟨w, v⟩ := x
  cases a with
  | minter a =>
    simp only [jointAct] at ha
    split at ha
    · cases ha
    · rename_i w' hw
      split at ha
      · rename_i hc
        cases ha
        refine .minter w w' v h (World.act_step hw) (.inl fun e he hcl => ?_)
        have := List.all_eq_true.1 hc e he
        rw [claims_of hcl] at this
        cases this
      · cases a <;> simp only [reduceCtorEq] at ha
        split at ha
        · rename_i id task o hk
          split at ha
          · rename_i c n hr
            split at ha
            · rename_i hh
              rw [Bool.and_eq_true] at hh
              cases ha
              exact .minter w _ v h (.answer w _ _ _ _ _ _ _ _ _ (split_at hk) (of_decide_eq_true hh.2) hr)
                (.inr ⟨_, _, _, _, _, _, _, _, _, split_at hk, hr, rfl, Evm.tells_iff hh.1⟩)
            · cases ha
          · cases ha
        · cases ha
  | deposit call b src =>
    simp only [jointAct] at ha
    split at ha
    · rename_i hh
      split at ha
      · cases ha
      · rename_i s l hd
        cases ha
        exact .chain _ _ _ h (.deposit v (oneToken t) call s l b src (oneToken_behaved minter t hh.2.2) hh.1 hh.2.1 hd)
    · cases ha
  | send k y =>
    simp only [jointAct] at ha
    split at ha
    · rename_i id batch o hk
      split at ha
      · rename_i hy
        cases ha
        exact .send _ _ _ h ⟨id, batch, o, List.mem_of_getElem? hk, hy⟩
      · cases ha
    · cases ha
  | mine f =>
    simp only [jointAct] at ha
    split at ha
    · rename_i hh
      cases ha
      exact .chain _ _ _ h (.mine v f _ hh.1 hh.2.1 hh.2.2.1 hh.2.2.2.1 hh.2.2.2.2 (settle_effect minter t f v.acc))
    · cases ha

/-- Carry out actions in order. -/
def jointPlay (minter helper t : Address) (x : World × Evm) : List JointAction → Option (World × Evm)
  | [] => some x
  | a :: l => (jointAct minter helper t x a).bind fun y => jointPlay minter helper t y l

theorem jointPlay_joint {minter helper t : Address} {l : List JointAction} : ∀ {x y : World × Evm},
    Joint minter helper (fun c => c = t) x.1 x.2 → jointPlay minter helper t x l = some y → Joint minter helper (fun c => c = t) y.1 y.2 := by
  induction l with
  | nil => intro x y h hp; cases hp; exact h
  | cons a l ih =>
    intro x y h hp
    simp only [jointPlay, Option.bind_eq_some_iff] at hp
    obtain ⟨z, h1, h2⟩ := hp
    exact ih (jointAct_joint h h1) h2

end Spec

namespace Example
open Spec Helper
variable [Keccak]

/-- A property of minter and chain after `init`, with the given balances and nonce at the start, and some actions. -/
def jointAfter (addr helper t : Address) (arg : InitArg) (acc : Accounts) (nonce : Nat) (l : List JointAction)
    (p : World → Evm → Bool) : Bool :=
  match State.ofInit arg with
  | .ok s =>
    match jointPlay addr helper t (World.initial minter arg s [], ⟨acc, nonce, [], [], []⟩) l with
    | some x => p x.1 x.2
    | none => false
  | .error _ => false

theorem jointAfter_joint {addr helper t : Address} {arg : InitArg} {acc : Accounts} {nonce : Nat} {l : List JointAction}
    {p : World → Evm → Bool} (h : jointAfter addr helper t arg acc nonce l p = true) :
    ∃ w v, Joint addr helper (fun c => c = t) w v ∧ p w v = true := by
  unfold jointAfter at h
  split at h
  · rename_i s hs
    split at h
    · rename_i x hx
      exact ⟨x.1, x.2, jointPlay_joint (Joint.init minter arg s [] acc nonce hs (by simp)) hx, h⟩
    · cases h
  · cases h

end Example
end EvmMinter
