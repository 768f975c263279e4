import Verif.Spec.Priced
import Verif.Lemmas.Evm
import Verif.Lemmas.Burns
import Verif.Props.C38
import Verif.Spec.ExampleWorld
import Verif.Props.C30
/-!
# C72: prices come from recent fee histories
-/

namespace EvmMinter
open Spec

namespace Spec

/-- The transaction pays at least the priority fee of the estimate, and its maximal fee covers the base fee as well. -/
def Covers (g : GasFeeEstimate) (tx : Tx) : Prop :=
  g.maxPriorityFeePerGas ≤ tx.maxPriorityFeePerGas ∧ g.baseFeePerGas + g.maxPriorityFeePerGas ≤ tx.maxFeePerGas

end Spec

/-! ## What estimates come from -/

theorem Spec.Fresh.mono {h : List PriceStep} {id : Nat} {g : GasFeeEstimate} (k : Fresh h id g) (l : List PriceStep) : Fresh (h ++ l) id g := by
  obtain ⟨b, now, a, rfl, hc⟩ := k
  refine ⟨b, now, a ++ l, by simp, hc.imp (fun k => k) ?_⟩
  rintro ⟨t, m, f, h1, h2⟩
  exact ⟨t, m, f, by simp [h1], h2⟩

theorem Spec.Fresh.estimated {h : List PriceStep} {id : Nat} {g : GasFeeEstimate} (k : Fresh h id g) :
    ∃ id' at' minimum history, .answered id' at' minimum history ∈ h ∧ estimateTransactionFee minimum history = .ok g := by
  obtain ⟨b, now, a, rfl, ⟨i, t, m, f, h1, h2, _⟩ | ⟨t, m, f, h1, h2⟩⟩ := k
  · exact ⟨i, t, m, f, by simp [h1], h2⟩
  · exact ⟨id, t, m, f, by simp [h1], h2⟩

theorem estimate_sum {minimum : WeiPerGas} {f : FeeHistory} {g : GasFeeEstimate} (h : estimateTransactionFee minimum f = .ok g) :
    2 * g.baseFeePerGas + g.maxPriorityFeePerGas < 2 ^ 256 := (C38_estimate.1 h).2.2

theorem estimate_bounded {minimum : WeiPerGas} {f : FeeHistory} {g : GasFeeEstimate} (h : estimateTransactionFee minimum f = .ok g) : g.Bounded := by
  have := estimate_sum h
  have hu : U256 = 2 ^ 256 := rfl
  constructor <;> rw [hu] <;> womega

/-! ## What tasks and events owe to estimates -/

/-- The task of message `id` uses estimates that it may use. -/
def Task.Estimated (h : List PriceStep) (id : Nat) : Task → Prop
  | .ext (.retrieveCount g) => Fresh h id g
  | .ext .retrieveGas | .ext (.erc20Gas _) => ∃ now, .began id now ∈ h
  | .ledger (.erc20Fee q _) | .ledger (.erc20NativeBurn q _) | .ledger (.erc20TokenBurn q _ _) =>
    ∃ g, Fresh h id g ∧ q.txFee = (g.toPrice erc20GasLimit).maxTransactionFee
  | _ => True

/-- The event that message `id` recorded comes from estimates that it may use. -/
def Event.Estimated (h : List PriceStep) (id : Nat) : Event → Prop
  | .createdTransaction _ tx => ∃ g, Fresh h id g ∧ Covers g tx ∧ tx.maxPriorityFeePerGas = g.maxPriorityFeePerGas ∧
      (tx.data = [] → tx.maxFeePerGas = 2 * g.baseFeePerGas + g.maxPriorityFeePerGas)
  | .replacedTransaction _ tx => ∃ g, Fresh h id g ∧ Covers g tx
  | .acceptedErc20WithdrawalRequest r => ∃ g, Fresh h id g ∧ r.maxTransactionFee = (g.toPrice erc20GasLimit).maxTransactionFee
  | _ => True

def Next.Estimated (h : List PriceStep) (id : Nat) : Next → Prop
  | .await t => t.Estimated h id
  | .finish _ => True

theorem Task.Estimated.mono {h : List PriceStep} {id : Nat} {t : Task} (k : t.Estimated h id) (l : List PriceStep) : t.Estimated (h ++ l) id := by
  unfold Task.Estimated at k ⊢
  split at k
  · exact k.mono l
  · obtain ⟨now, k⟩ := k; exact ⟨now, by simp [k]⟩
  · obtain ⟨now, k⟩ := k; exact ⟨now, by simp [k]⟩
  · obtain ⟨g, k1, k2⟩ := k; exact ⟨g, k1.mono l, k2⟩
  · obtain ⟨g, k1, k2⟩ := k; exact ⟨g, k1.mono l, k2⟩
  · obtain ⟨g, k1, k2⟩ := k; exact ⟨g, k1.mono l, k2⟩
  · trivial

theorem Event.Estimated.mono {h : List PriceStep} {id : Nat} {e : Event} (k : e.Estimated h id) (l : List PriceStep) : e.Estimated (h ++ l) id := by
  cases e <;> try trivial
  all_goals (obtain ⟨g, k1, k2⟩ := k; exact ⟨g, k1.mono l, k2⟩)

theorem Event.estimated_of_origin {h : List PriceStep} {id : Nat} {e : Event} (h1 : e.origin ≠ .endpoint) (h2 : e.origin ≠ .retrieve) :
    e.Estimated h id := by
  cases e <;> first | trivial | exact absurd rfl h1 | exact absurd rfl h2

section
variable [Keccak]

omit [Keccak] in
theorem created_covers {r : Request} {n : TransactionNonce} {g : GasFeeEstimate} {net : EvmNetwork} {tx : Tx}
    (hs : 2 * g.baseFeePerGas + g.maxPriorityFeePerGas < 2 ^ 256)
    (h : createTransaction r n g (estimateGasLimit r) net = .ok (.ok tx)) :
    Covers g tx ∧ tx.maxPriorityFeePerGas = g.maxPriorityFeePerGas ∧
      (tx.data = [] → tx.maxFeePerGas = 2 * g.baseFeePerGas + g.maxPriorityFeePerGas) := by
  have hmax : g.maxFeePerGas = 2 * g.baseFeePerGas + g.maxPriorityFeePerGas := by
    rw [C38_max_fee]; womega
  have hmin : g.minMaxFeePerGas = g.baseFeePerGas + g.maxPriorityFeePerGas := by
    unfold GasFeeEstimate.minMaxFeePerGas cadd U256
    rw [if_pos (by womega)]; rfl
  unfold createTransaction at h
  simp only [Res.bind_ok] at h
  obtain ⟨_, _, h⟩ := h
  cases r with
  | native q =>
    simp only at h
    split at h
    · cases h
    · cases h
      simp only [Covers, GasFeeEstimate.toPrice, hmax]
      exact ⟨⟨Nat.le_refl _, by womega⟩, trivial, fun _ => trivial⟩
  | erc20 q =>
    simp only [Res.bind_ok] at h
    obtain ⟨f, _, h⟩ := h
    split at h
    · cases h
    · rename_i hf
      cases h
      rw [hmin] at hf
      refine ⟨⟨Nat.le_refl _, Nat.le_of_not_lt hf⟩, rfl, fun hd => ?_⟩
      simp [Erc20Transfer.encode, transferSelector] at hd

omit [Keccak] in
theorem replaced_covers {t : Resubmittable SignedTx} {g : GasFeeEstimate} {tx : Tx}
    (hs : 2 * g.baseFeePerGas + g.maxPriorityFeePerGas < 2 ^ 256) (h : t.resubmit g = .ok (.replaced tx)) : Covers g tx := by
  obtain ⟨p, rfl, hne, _, htx, _⟩ := resubmit_replaced h
  obtain ⟨_, h2, _, h4⟩ := resubmit_price hne
  rw [htx]
  simp only [Covers, h2, h4]
  refine ⟨Nat.le_max_right _ _, Nat.le_trans ?_ (Nat.le_max_left _ _)⟩
  unfold GasFeeEstimate.minMaxFeePerGas cadd u256Max U256
  simp only
  split
  · simp only [Option.getD_some]
    exact Nat.add_le_add_left (Nat.le_max_right _ _) _
  · simp only [Option.getD_none]
    womega

omit [Keccak] in
theorem resubmitLoop_mem {g : GasFeeEstimate} : ∀ {l : List (TransactionNonce × LedgerBurnIndex × List (Resubmittable SignedTx))}
    {out : List (Except InsufficientFee (LedgerBurnIndex × Tx))}, Transactions.resubmitLoop g l = .ok out →
    ∀ i tx, .ok (i, tx) ∈ out → ∃ last : Resubmittable SignedTx, last.resubmit g = .ok (.replaced tx) := by
  intro l
  induction l with
  | nil => intro out h i tx hx; cases h; cases hx
  | cons x t ih =>
    intro out h i tx hx
    obtain ⟨n, j, l⟩ := x
    simp only [Transactions.resubmitLoop, Res.bind_ok] at h
    obtain ⟨last, _, y, hy, h⟩ := h
    cases y with
    | replaced tx' =>
      simp only [Res.bind_ok, Res.pure_ok] at h
      obtain ⟨r, hr, rfl⟩ := h
      rcases List.mem_cons.1 hx with e | hx
      · cases e; exact ⟨last, hy⟩
      · exact ih hr i tx hx
    | unchanged => exact ih h i tx hx
    | insufficientFee a b =>
      cases h
      simp at hx

/-- What the creation of transactions records. -/
theorem Adds.priced {g : GasFeeEstimate} (hs : 2 * g.baseFeePerGas + g.maxPriorityFeePerGas < 2 ^ 256) {h : List PriceStep} {id : Nat}
    (hf : Fresh h id g) {c c' : Mem} {count : Option TransactionCount} {n : Next} (hr : c.retrieveCreate g count = .ok (c', n)) :
    Adds (Event.Estimated h id) c.m c'.m := by
  simp only [Mem.retrieveCreate, Res.bind_ok] at hr
  obtain ⟨m1, h1, m2, h2, _, _, hr⟩ := hr
  refine Adds.trans (m' := m1) ?_ (Adds.trans (m' := m2) ?_ (.of_eq ?_))
  · unfold Minter.resubmitBatch at h1
    split at h1
    · cases h1; exact .of_eq rfl
    · split at h1
      · cases h1; exact .of_eq rfl
      · simp only [Res.bind_ok] at h1
        obtain ⟨l, hl, h1⟩ := h1
        simp only [Transactions.createResubmit, Res.bind_ok] at hl
        obtain ⟨_, _, hl⟩ := hl
        refine Adds.processEvents (fun e he => ?_) h1
        obtain ⟨x, hx, he⟩ := List.mem_filterMap.1 he
        split at he
        · cases he
          obtain ⟨last, hlast⟩ := resubmitLoop_mem hl _ _ hx
          exact ⟨g, hf, replaced_covers hs hlast⟩
        · cases he
  · unfold Minter.createBatch at h2
    revert h2
    generalize m1.st.txs.requestsBatch 5 = l
    clear h1
    revert m1
    induction l with
    | nil => intro m1 h2; cases h2; exact .of_eq rfl
    | cons r t ih =>
      intro m1 h2
      simp only [Minter.createLoop, Res.bind_ok] at h2
      obtain ⟨m3, h3, h2⟩ := h2
      refine Adds.trans (m' := m3) ?_ (ih m3 h2)
      simp only [Minter.createOne, Res.bind_ok] at h3
      obtain ⟨x, hx, h3⟩ := h3
      split at h3
      · refine Adds.processEvent (P := Event.Estimated h id) ?_ h3
        exact ⟨g, hf, created_covers hs hx⟩
      · simp only [Res.bind_ok, Res.pure_ok] at h3
        obtain ⟨_, _, rfl⟩ := h3
        exact ⟨[], by simp⟩
  · split at hr
    · exact Mem.retrieveSend_m hr
    · cases hr; rfl

/-! ## Tasks -/

/-- The task uses no estimate. -/
def Next.Free : Next → Prop
  | .await (.ext .retrieveGas) | .await (.ext (.retrieveCount _)) | .await (.ext (.erc20Gas _)) => False
  | .await (.ledger (.erc20Fee _ _)) | .await (.ledger (.erc20NativeBurn _ _)) | .await (.ledger (.erc20TokenBurn _ _ _)) => False
  | _ => True

omit [Keccak] in
theorem Next.Free.estimated {n : Next} (h : n.Free) (l : List PriceStep) (id : Nat) : n.Estimated l id := by
  cases n with
  | finish r => trivial
  | await t =>
    rcases t with t | t <;> cases t <;> first | trivial | exact h.elim

omit [Keccak] in
theorem Mem.mintLoop_free {c c' : Mem} {env : MintEnv} {l : List Deposit} {n : Next} (h : c.mintLoop env l = .ok (c', n)) : n.Free := by
  rcases Mem.mintLoop_next h with rfl | ⟨_, _, _, _, _, _, rfl⟩ <;> trivial

omit [Keccak] in
theorem Mem.reimburseLoop_free {c c' : Mem} {l : List (ReimbIndex × ReimbRequest)} {n : Next} (h : c.reimburseLoop l = .ok (c', n)) :
    n.Free := by
  rcases Mem.reimburseLoop_next h with rfl | ⟨_, _, _, _, rfl⟩ <;> trivial

omit [Keccak] in
theorem Mem.retrieveFinalize_free (c : Mem) : c.retrieveFinalize.2.Free := by
  unfold Mem.retrieveFinalize
  split <;> trivial

omit [Keccak] in
theorem Mem.retrieveSend_free {c c' : Mem} {count : Option TransactionCount} {n : Next} (h : c.retrieveSend count = .ok (c', n)) : n.Free := by
  unfold Mem.retrieveSend at h
  split at h
  · simp only [Except.ok.injEq] at h
    have := c.retrieveFinalize_free
    rwa [h] at this
  · simp only [Res.bind_ok] at h
    obtain ⟨b, _, h⟩ := h
    split at h
    · simp only [Res.pure_ok] at h
      have := c.retrieveFinalize_free
      rwa [h] at this
    · cases h; trivial

omit [Keccak] in
theorem Mem.erc20Fail_free {c c' : Mem} {q : Erc20Charged} {e : WithdrawErc20Error} {n : Next} (h : c.erc20Fail q e = (c', n)) : n.Free := by
  rcases c.erc20Fail_cases q e with ⟨_, _, k⟩ | ⟨_, k⟩
  · rw [k, Prod.mk.injEq] at h; rw [← h.2]; trivial
  · rw [k, Prod.mk.injEq] at h; rw [← h.2]; trivial

omit [Keccak] in
theorem Mem.onErc20Gas_est {c c' : Mem} {q : Erc20Call} {g : Option GasFeeEstimate} {now : Nat} {n : Next} {h : List PriceStep} {id : Nat}
    (hr : c.onErc20Gas q g now = .ok (c', n)) (hg : ∀ g', g = some g' → Fresh h id g') : n.Estimated h id := by
  rcases Mem.onErc20Gas_cases hr with ⟨_, _, rfl⟩ | ⟨g', rfl, _, ⟨_, _, _, _, rfl⟩ | ⟨_, rfl⟩⟩
  · trivial
  · exact ⟨g', hg g' rfl, rfl⟩
  · exact ⟨g', hg g' rfl, rfl⟩

omit [Keccak] in
theorem Mem.onRetrieveGas_est (c : Mem) {g : Option GasFeeEstimate} {h : List PriceStep} {id : Nat} (hg : ∀ g', g = some g' → Fresh h id g') :
    (c.onRetrieveGas g).2.Estimated h id := by
  unfold Mem.onRetrieveGas
  split
  · trivial
  · rename_i g'; exact hg g' rfl

/-- The first part of a message. -/
theorem Message.run_est {c c' : Mem} {msg : Message} {now : Nat} {n : Next} (hr : msg.run c now = .ok (c', n)) {h : List PriceStep} {id : Nat}
    (hb : .began id now ∈ h) (hg : ∀ g, msg.estimate? = some (some g) → Fresh h id g) :
    n.Estimated h id ∧ ∀ e ∈ news c c', e.Estimated h id := by
  constructor
  · cases msg <;> simp only [Message.run] at hr
    case mint =>
      unfold Mem.startMint at hr
      split at hr
      · cases hr; trivial
      · exact (Mem.mintLoop_free hr).estimated h id
    case reimbursement =>
      unfold Mem.startReimbursement at hr
      split at hr
      · cases hr; trivial
      · exact (Mem.reimburseLoop_free hr).estimated h id
    case retrieve cached =>
      unfold Mem.startRetrieve at hr
      split at hr
      · cases hr; trivial
      · split at hr
        · cases hr; trivial
        · split at hr
          · cases hr; exact hg _ rfl
          · split at hr
            · cases hr; trivial
            · cases hr; exact ⟨now, hb⟩
    case scrape =>
      split at hr <;> cases hr <;> trivial
    case gas =>
      split at hr <;> cases hr <;> trivial
    case withdrawNative =>
      obtain ⟨c1, _, k⟩ := Mem.startNative_cases hr
      rcases k with ⟨_, _, rfl⟩ | ⟨_, _, _, _, _, ⟨_, _, _, _, rfl⟩ | ⟨_, rfl⟩⟩ <;> trivial
    case withdrawErc20 =>
      obtain ⟨c1, _, k⟩ := Mem.startErc20_cases hr
      rcases k with ⟨_, _, rfl⟩ | ⟨_, _, _, _, _, ⟨g, rfl, k⟩ | ⟨_, k⟩ | ⟨_, _, rfl⟩⟩
      · trivial
      · exact Mem.onErc20Gas_est k fun g' hg' => by cases hg'; exact hg _ rfl
      · exact Mem.onErc20Gas_est k fun g' hg' => by cases hg'
      · exact ⟨now, hb⟩
    case addToken =>
      simp only [Res.bind_ok, Res.pure_ok] at hr
      obtain ⟨x, _, k⟩ := hr
      cases k
      trivial
  · intro e he
    rcases Message.run_news hr with k | ⟨_, _, t, _, k, _⟩
    · rw [news_same k] at he; cases he
    · rw [k] at he
      rw [List.mem_singleton.1 he]; trivial

theorem news_est {o : Origin} {c c' : Mem} (k : Grew o c.m c'.m) (h1 : o ≠ .endpoint) (h2 : o ≠ .retrieve) {h : List PriceStep} {id : Nat} :
    ∀ e ∈ news c c', e.Estimated h id := by
  intro e he
  have := news_of_grew k e he
  exact Event.estimated_of_origin (by rw [this]; exact h1) (by rw [this]; exact h2)

omit [Keccak] in
theorem Adds.news_est {P : Event → Prop} {c c' : Mem} (k : Adds P c.m c'.m) : ∀ e ∈ news c c', P e := by
  obtain ⟨es, h1, h2⟩ := k
  intro e he
  rw [news, h1, List.drop_left] at he
  exact h2 e he

/-- The answer of a ledger. -/
theorem LedgerTask.resume_est {c c' : Mem} {t : LedgerTask} {a : LedgerAnswer} {now : Nat} {n : Next} (hr : t.resume c a now = .ok (c', n))
    {h : List PriceStep} {id : Nat} (ht : (Task.ledger t).Estimated h id) :
    n.Estimated h id ∧ ∀ e ∈ news c c', e.Estimated h id := by
  have none' : ∀ {c' : Mem}, c'.m = c.m → ∀ e ∈ news c c', e.Estimated h id := fun k e he => by rw [news_same k] at he; cases he
  have grew := LedgerTask.resume_grew hr
  cases t <;> simp only [LedgerTask.resume] at hr
  case mintUser env d sym l amount rest =>
    refine ⟨?_, news_est grew (by simp [LedgerTask.origin]) (by simp [LedgerTask.origin])⟩
    rcases Mem.onMintUser_cases hr with ⟨i, fee, e, rfl, hi, rfl, hf, rfl, rfl⟩ | ⟨i, c1, rfl, hi, _, hp, hl⟩ | ⟨_, hl⟩
    · trivial
    · exact (Mem.mintLoop_free hl).estimated h id
    · exact (Mem.mintLoop_free hl).estimated h id
  case mintFee env d sym l fee block rest =>
    refine ⟨?_, news_est grew (by simp [LedgerTask.origin]) (by simp [LedgerTask.origin])⟩
    simp only [Mem.mintRecord, Res.bind_ok] at hr
    obtain ⟨c1, hp, hl⟩ := hr
    exact (Mem.mintLoop_free hl).estimated h id
  case reimburse x r l rest =>
    refine ⟨?_, news_est grew (by simp [LedgerTask.origin]) (by simp [LedgerTask.origin])⟩
    rcases Mem.onReimburse_cases hr with ⟨i, c1, rfl, hi, hp, hl⟩ | ⟨_, hl⟩
    · exact (Mem.reimburseLoop_free hl).estimated h id
    · exact (Mem.reimburseLoop_free hl).estimated h id
  case nativeFee =>
    rcases Mem.onNativeFee_cases hr with ⟨_, _, _, _, _, rfl, rfl⟩ | ⟨_, _, rfl, rfl⟩
    · exact ⟨trivial, none' rfl⟩
    · exact ⟨trivial, none' rfl⟩
  case nativeBurn =>
    rcases Mem.onNativeBurn_cases hr with ⟨_, c1, _, _, hp, rfl, rfl⟩ | ⟨_, _, _, _, rfl, rfl⟩ | ⟨_, _, _, rfl, rfl⟩
    · refine ⟨trivial, fun e he => ?_⟩
      have he : e ∈ news c c1 := he
      rw [news_process hp] at he
      rw [List.mem_singleton.1 he]; trivial
    · exact ⟨trivial, none' rfl⟩
    · exact ⟨trivial, none' rfl⟩
  case nativeRefund =>
    obtain ⟨_, rfl, rfl⟩ := Mem.onNativeRefund_cases hr
    exact ⟨trivial, none' rfl⟩
  case erc20Fee =>
    rcases Mem.onErc20Fee_cases hr with ⟨_, _, _, rfl, rfl⟩ | ⟨_, _, rfl, rfl⟩
    · exact ⟨ht, none' rfl⟩
    · exact ⟨trivial, none' rfl⟩
  case erc20NativeBurn =>
    rcases Mem.onErc20NativeBurn_cases hr with ⟨_, _, _, rfl, rfl⟩ | ⟨_, e, k⟩
    · exact ⟨ht, none' rfl⟩
    · refine ⟨(Mem.erc20Fail_free k).estimated h id, none' ?_⟩
      rcases c.erc20Fail_cases _ _ with ⟨_, _, k'⟩ | ⟨_, k'⟩
      · rw [k', Prod.mk.injEq] at k; rw [← k.1]
      · rw [k', Prod.mk.injEq] at k; rw [← k.1]; rfl
  case erc20TokenBurn q at' ni =>
    rcases Mem.onErc20TokenBurn_cases hr with ⟨_, c1, _, _, hp, rfl, rfl⟩ | ⟨_, e, c1, _, hc, k⟩
    · refine ⟨trivial, fun e he => ?_⟩
      have he : e ∈ news c c1 := he
      rw [news_process hp] at he
      rw [List.mem_singleton.1 he]
      exact ht
    · refine ⟨(Mem.erc20Fail_free k).estimated h id, fun e he => ?_⟩
      have hm : c'.m = c1.m := by
        rcases c1.erc20Fail_cases _ _ with ⟨_, _, k'⟩ | ⟨_, k'⟩
        · rw [k', Prod.mk.injEq] at k; rw [← k.1]
        · rw [k', Prod.mk.injEq] at k; rw [← k.1]; rfl
      rw [news_eq hm] at he
      rcases hc with ⟨_, hp⟩ | ⟨_, rfl⟩
      · rw [news_process hp] at he
        rw [List.mem_singleton.1 he]; trivial
      · rw [news_same rfl] at he; cases he
  case erc20Refund =>
    obtain ⟨rfl, rfl⟩ := Mem.onErc20Refund_cases hr
    exact ⟨trivial, none' rfl⟩

/-- The answer of another canister. -/
theorem ExtTask.resume_est {c c' : Mem} {t : ExtTask} {a : ExtAnswer} {now : Nat} {n : Next} (hr : t.resume c now a = some (.ok (c', n)))
    {h : List PriceStep} {id : Nat} (ht : (Task.ext t).Estimated h id) (hg : ∀ g, a = .gas (some g) → t ≠ .gas → Fresh h id g) :
    n.Estimated h id ∧ ∀ e ∈ news c c', e.Estimated h id := by
  have none' : ∀ {c' : Mem}, c'.m = c.m → ∀ e ∈ news c c', e.Estimated h id := fun k e he => by rw [news_same k] at he; cases he
  have grew := ExtTask.resume_grew hr
  have scr : ∀ (w : Scraper), (c.scraperStep w).2.Free := by
    intro w
    unfold Mem.scraperStep
    split <;> trivial
  unfold ExtTask.resume at hr
  split at hr <;> simp only [Option.some.injEq, reduceCtorEq] at hr
  · refine ⟨?_, news_est grew (by simp [ExtTask.origin]) (by simp [ExtTask.origin])⟩
    simp only [Res.bind_ok, Res.pure_ok] at hr
    obtain ⟨w, _, k⟩ := hr
    have := scr w
    rw [k] at this
    exact this.estimated h id
  · refine ⟨?_, news_est grew (by simp [ExtTask.origin]) (by simp [ExtTask.origin])⟩
    simp only [Res.bind_ok, Res.pure_ok] at hr
    obtain ⟨w, _, k⟩ := hr
    have := scr w
    rw [k] at this
    exact this.estimated h id
  · cases hr; exact ⟨trivial, none' rfl⟩
  · rename_i g
    have := (c.release .refreshGasFeeEstimate).onRetrieveGas_est (g := g) (h := h) (id := id)
      fun g' hg' => hg g' (by rw [hg']) (by simp)
    rw [Except.ok.injEq] at hr
    refine ⟨by rwa [hr] at this, none' ?_⟩
    unfold Mem.onRetrieveGas at hr
    split at hr <;> simp only [Mem.retrieveEnd, Prod.mk.injEq] at hr <;> rw [← hr.1] <;> rfl
  · rename_i g count
    have hs : 2 * g.baseFeePerGas + g.maxPriorityFeePerGas < 2 ^ 256 := by
      obtain ⟨_, _, _, _, _, k⟩ := Fresh.estimated ht
      exact estimate_sum k
    refine ⟨?_, (Adds.priced hs ht hr).news_est⟩
    simp only [Mem.retrieveCreate, Res.bind_ok] at hr
    obtain ⟨_, _, _, _, _, _, k⟩ := hr
    split at k
    · exact (Mem.retrieveSend_free k).estimated h id
    · cases k; trivial
  · simp only [Mem.onSignatures, Res.bind_ok] at hr
    obtain ⟨m, hm, k⟩ := hr
    refine ⟨(Mem.retrieveSend_free k).estimated h id, Adds.news_est ?_⟩
    rw [Mem.retrieveSend_m k]
    exact Adds.signed (fun _ _ => trivial) hm
  · rw [Except.ok.injEq] at hr
    have := c.retrieveFinalize_free
    rw [hr] at this
    refine ⟨this.estimated h id, none' ?_⟩
    unfold Mem.retrieveFinalize at hr
    split at hr <;> simp only [Mem.retrieveEnd, Prod.mk.injEq] at hr <;> rw [← hr.1] <;> rfl
  · unfold Mem.onFinalizedCount at hr
    split at hr
    · cases hr; exact ⟨trivial, none' rfl⟩
    · simp only [Res.bind_ok] at hr
      obtain ⟨f, _, hr⟩ := hr
      split at hr
      · simp only [Mem.onReceipts, Res.bind_ok, Res.pure_ok] at hr
        obtain ⟨m, hm, k⟩ := hr
        cases k
        refine ⟨trivial, Adds.news_est ?_⟩
        exact (Adds.receipts hm).mono (by rintro e ⟨_, _, rfl, _⟩; trivial)
      · cases hr; exact ⟨trivial, none' rfl⟩
  · simp only [Mem.onReceipts, Res.bind_ok, Res.pure_ok] at hr
    obtain ⟨m, hm, k⟩ := hr
    cases k
    refine ⟨trivial, Adds.news_est ?_⟩
    exact (Adds.receipts hm).mono (by rintro e ⟨_, _, rfl, _⟩; trivial)
  · refine ⟨Mem.onErc20Gas_est hr fun g' hg' => hg g' (by rw [hg']) (by simp), none' ?_⟩
    exact (Mem.onErc20Gas_m hr).trans rfl

/-! ## Executions -/

structure PricedInv (w : World) (cache : CachedEstimate) (h : List PriceStep) : Prop where
  reach : Reachable w
  cached : ∀ ts g, cache = some (ts, g) → ∃ id minimum history, .answered id ts minimum history ∈ h ∧
    estimateTransactionFee minimum history = .ok g
  tasks : ∀ p ∈ w.tasks, p.task.Estimated h p.id
  trace : ∀ x ∈ w.trace, x.2.Estimated h x.1

omit [Keccak] in
theorem cachedEstimate_some {cache : CachedEstimate} {now : Nat} {g : GasFeeEstimate} (h : cachedEstimate cache now = some g) :
    ∃ ts, cache = some (ts, g) ∧ now < ts + 30000000000 := by
  unfold cachedEstimate at h
  split at h
  · rename_i ts g'
    split at h
    · rename_i hlt
      cases h
      exact ⟨ts, rfl, Nat.lt_of_lt_of_le hlt (Nat.min_le_left _ _)⟩
    · cases h
  · cases h

omit [Keccak] in
theorem refresh_some {cache cache' : CachedEstimate} {minimum : WeiPerGas} {now : Nat} {f : FeeHistory} {g : Option GasFeeEstimate}
    (h : refreshEstimate cache minimum now (some f) = (cache', g)) :
    (∃ g', g = some g' ∧ cache' = some (now, g') ∧ estimateTransactionFee minimum f = .ok g') ∨ (g = none ∧ cache' = cache) := by
  simp only [refreshEstimate] at h
  split at h
  · rename_i g' hg
    rw [Prod.mk.injEq] at h
    exact .inl ⟨g', h.2.symm, h.1.symm, hg⟩
  · rw [Prod.mk.injEq] at h
    exact .inr ⟨h.2.symm, h.1.symm⟩

omit [Keccak] in
theorem mem_pending_est {n : Next} {id : Nat} {h : List PriceStep} (hn : n.Estimated h id) : ∀ p ∈ n.pending id, p.task.Estimated h p.id := by
  intro p hp
  cases n with
  | finish r => cases hp
  | await t => rw [List.mem_singleton.1 hp]; exact hn

omit [Keccak] in
theorem mem_newEvents_est {c c' : Mem} {id : Nat} {h : List PriceStep} (hn : ∀ e ∈ news c c', e.Estimated h id) :
    ∀ x ∈ newEvents id c c', x.2.Estimated h x.1 := by
  intro x hx
  obtain ⟨e, he, rfl⟩ := List.mem_map.1 hx
  exact hn e he

omit [Keccak] in
theorem mem_append_all {α : Type} {P : α → Prop} {l l' : List α} (h1 : ∀ x ∈ l, P x) (h2 : ∀ x ∈ l', P x) : ∀ x ∈ l ++ l', P x :=
  fun x hx => (List.mem_append.1 hx).elim (h1 x) (h2 x)

theorem cleanup_est {c c' : Mem} {t : Task} (k : t.cleanup c = .ok c') (h : List PriceStep) (id : Nat) : ∀ e ∈ news c c', e.Estimated h id := by
  intro e he
  rcases Task.cleanup_news k with k | ⟨_, k⟩ | ⟨_, _, _, _, _, k⟩ <;> rw [k] at he
  · cases he
  · rw [List.mem_singleton.1 he]; trivial
  · rw [List.mem_singleton.1 he]; trivial

theorem pricedInv {w : World} {cache : CachedEstimate} {h : List PriceStep} (hp : Priced w cache h) : PricedInv w cache h := by
  induction hp with
  | init id a s blocks ha hb => exact ⟨.init id a s blocks ha hb, fun _ _ k => (by cases k), fun _ k => (by cases k), fun _ k => (by cases k)⟩
  | start w cache h msg now c n _ hmsg hr ih =>
    have fresh : ∀ g, msg.estimate? = some (some g) → Fresh (h ++ [.began w.nextId now]) w.nextId g := by
      intro g hg
      obtain ⟨ts, hc, hlt⟩ := cachedEstimate_some (hmsg _ hg).symm
      obtain ⟨i, m, f, k1, k2⟩ := ih.cached ts g hc
      exact ⟨h, now, [], rfl, .inl ⟨i, ts, m, f, k1, k2, hlt⟩⟩
    obtain ⟨e1, e2⟩ := Message.run_est hr (h := h ++ [.began w.nextId now]) (id := w.nextId) (by simp) fresh
    refine ⟨.step _ _ ih.reach (.start w msg now c n ?_ hr), ?_, ?_, ?_⟩
    · have bounded : ∀ g, msg.estimate? = some (some g) → g.Bounded := by
        intro g hg
        obtain ⟨_, _, _, _, _, k⟩ := (fresh g hg).estimated
        exact estimate_bounded k
      unfold Message.Typed
      split
      · exact bounded _ rfl
      · exact bounded _ rfl
      · trivial
    · intro ts g hc
      obtain ⟨i, m, f, k1, k2⟩ := ih.cached ts g hc
      exact ⟨i, m, f, by simp [k1], k2⟩
    · refine mem_append_all (mem_append_all (fun p hp => (ih.tasks p hp).mono _) (mem_pending_est e1)) (fun p hp => by cases hp)
    · exact mem_append_all (fun x hx => (ih.trace x hx).mono _) (mem_newEvents_est e2)
  | fees w cache cache' h pre post id t o history g now c n _ ht haw hrefresh hr ih =>
    have htask : ∀ p ∈ pre ++ ⟨id, .ext t, o⟩ :: post, p.task.Estimated h p.id := by rw [← ht]; exact ih.tasks
    have hcase := refresh_some hrefresh
    have fresh : ∀ g', ExtAnswer.gas g = .gas (some g') → t ≠ .gas →
        Fresh (h ++ [.answered id now w.mem.m.st.minMaxPriorityFeePerGas history]) id g' := by
      intro g' hg' htg
      cases hg'
      rcases hcase with ⟨g'', k1, _, k2⟩ | ⟨k1, _⟩
      · cases k1
        have : ∃ now', .began id now' ∈ h := by
          have := htask ⟨id, .ext t, o⟩ (by simp)
          cases t <;> first | exact absurd rfl htg | exact this | exact haw.elim
        obtain ⟨now', k⟩ := this
        obtain ⟨b, a, rfl⟩ := List.append_of_mem k
        exact ⟨b, now', a ++ [.answered id now w.mem.m.st.minMaxPriorityFeePerGas history], by simp, .inr ⟨now, _, history, by simp, k2⟩⟩
      · cases k1
    obtain ⟨e1, e2⟩ := ExtTask.resume_est hr ((htask ⟨id, .ext t, o⟩ (by simp)).mono _) fresh
    refine ⟨.step _ _ ih.reach (.answer w pre post id t o (.gas g) now c n ht ?_ hr), ?_, ?_, ?_⟩
    · rcases hcase with ⟨g', rfl, _, k⟩ | ⟨rfl, _⟩
      · exact estimate_bounded k
      · trivial
    · intro ts g' hc
      rcases hcase with ⟨g'', _, k1, k2⟩ | ⟨_, k1⟩
      · rw [k1] at hc
        cases hc
        exact ⟨id, _, history, by simp, k2⟩
      · rw [k1] at hc
        obtain ⟨i, m, f, k1, k2⟩ := ih.cached ts g' hc
        exact ⟨i, m, f, by simp [k1], k2⟩
    · refine mem_append_all (mem_append_all (fun p hp => (htask p (by simp [hp])).mono _) (mem_pending_est e1))
        (fun p hp => (htask p (by simp [hp])).mono _)
    · exact mem_append_all (fun x hx => (ih.trace x hx).mono _) (mem_newEvents_est e2)
  | other w w' cache cache' h _ hs hid haw hcache ih =>
    have hcached : ∀ ts g, cache' = some (ts, g) → ∃ id minimum history, .answered id ts minimum history ∈ h ∧
        estimateTransactionFee minimum history = .ok g := by
      intro ts g hc
      rcases hcache with rfl | rfl
      · exact ih.cached ts g hc
      · cases hc
    have main : (∀ p ∈ w'.tasks, p.task.Estimated h p.id) ∧ ∀ x ∈ w'.trace, x.2.Estimated h x.1 := by
      have drop : ∀ {pre post : List Pending} {p : Pending} {c : Mem} {t : Task}, w.tasks = pre ++ p :: post → t.cleanup w.mem = .ok c → ∀ (id : Nat) (o : Outcome),
          (∀ p ∈ (w.drop pre post id c o).tasks, p.task.Estimated h p.id) ∧ ∀ x ∈ (w.drop pre post id c o).trace, x.2.Estimated h x.1 := by
        intro pre post p c t ht hc id o
        have htask : ∀ x ∈ pre ++ p :: post, x.task.Estimated h x.id := by rw [← ht]; exact ih.tasks
        exact ⟨mem_append_all (fun p hp => htask p (by simp [hp])) (fun p hp => htask p (by simp [hp])),
          mem_append_all ih.trace (mem_newEvents_est (cleanup_est hc h id))⟩
      have swap : ∀ {pre post : List Pending} {id : Nat} {t : LedgerTask} (a a' : Option LedgerAnswer), w.tasks = pre ++ ⟨id, .ledger t, a⟩ :: post →
          ∀ p ∈ pre ++ ⟨id, .ledger t, a'⟩ :: post, p.task.Estimated h p.id := by
        intro pre post id t a a' ht p hp
        have htask : ∀ p ∈ pre ++ ⟨id, .ledger t, a⟩ :: post, p.task.Estimated h p.id := by rw [← ht]; exact ih.tasks
        simp only [List.mem_append, List.mem_cons] at hp
        rcases hp with hp | rfl | hp
        · exact htask p (by simp [hp])
        · exact htask ⟨id, .ledger t, a⟩ (by simp)
        · exact htask p (by simp [hp])
      cases hs with
      | start msg now c n hty hr =>
        have hid' : ((w.begin msg).advance w.tasks [] w.nextId c n).nextId ≠ w.nextId := Nat.succ_ne_self _
        obtain ⟨hm, ht⟩ := hid.resolve_left hid'
        refine ⟨fun p hp => ih.tasks p (by rwa [ht] at hp), mem_append_all ih.trace (mem_newEvents_est ?_)⟩
        intro e he
        have : c = w.mem := hm
        rw [show news (w.begin msg).mem c = [] from news_same (congrArg Mem.m this)] at he
        cases he
      | startTrap msg now e hty hr =>
        refine ⟨?_, mem_append_all ih.trace (mem_newEvents_est fun e he => ?_)⟩
        · exact mem_append_all ih.tasks fun p hp => by cases hp
        · rw [show news (w.begin msg).mem w.mem = [] from news_same rfl] at he; cases he
      | execute pre post id t ht _ => exact ⟨swap none _ ht, ih.trace⟩
      | refuse pre post id t e ht _ => exact ⟨swap none _ ht, ih.trace⟩
      | reject pre post id t ht => exact ⟨swap none _ ht, ih.trace⟩
      | deliver pre post id t a now c n ht hr =>
        have htask : ∀ p ∈ pre ++ ⟨id, .ledger t, some a⟩ :: post, p.task.Estimated h p.id := by rw [← ht]; exact ih.tasks
        obtain ⟨e1, e2⟩ := LedgerTask.resume_est hr (htask ⟨id, .ledger t, some a⟩ (by simp))
        exact ⟨mem_append_all (mem_append_all (fun p hp => htask p (by simp [hp])) (mem_pending_est e1)) (fun p hp => htask p (by simp [hp])),
          mem_append_all ih.trace (mem_newEvents_est e2)⟩
      | deliverTrap pre post id t a now e c ht hr hc => exact drop ht hc id _
      | kill pre post id t a c ht hc => exact drop ht hc id _
      | answer pre post id t o a now c n ht hty hr =>
        have htask : ∀ p ∈ pre ++ ⟨id, .ext t, o⟩ :: post, p.task.Estimated h p.id := by rw [← ht]; exact ih.tasks
        have never : ∀ g, a = .gas (some g) → t ≠ .gas → Fresh h id g := by
          intro g hg htg
          subst hg
          have no : ∀ t', (Task.ext t).AwaitsFees → n = .await t' → t' ≠ .ext t → False := by
            intro t' h1 h2 h3
            have := haw ⟨id, .ext t, o⟩ (by rw [ht]; simp) h1 ⟨id, t', none⟩ (by rw [h2]; simp [World.advance, Next.pending]) rfl
            rw [Pending.mk.injEq] at this
            exact h3 this.2.1
          cases t <;> simp only [ExtTask.resume, reduceCtorEq, Option.some.injEq] at hr
          case gas => exact absurd rfl htg
          case retrieveGas =>
            simp only [Mem.onRetrieveGas, Except.ok.injEq, Prod.mk.injEq] at hr
            exact (no _ trivial hr.2.symm (by simp)).elim
          case erc20Gas q =>
            rcases Mem.onErc20Gas_cases hr with ⟨k, _⟩ | ⟨_, _, _, ⟨_, _, _, _, k⟩ | ⟨_, k⟩⟩
            · cases k
            · exact (no _ trivial k (by simp)).elim
            · exact (no _ trivial k (by simp)).elim
          all_goals (exfalso; revert hr; simp)
        obtain ⟨e1, e2⟩ := ExtTask.resume_est hr (htask ⟨id, .ext t, o⟩ (by simp)) never
        exact ⟨mem_append_all (mem_append_all (fun p hp => htask p (by simp [hp])) (mem_pending_est e1)) (fun p hp => htask p (by simp [hp])),
          mem_append_all ih.trace (mem_newEvents_est e2)⟩
      | answerTrap pre post id t o a now e c ht _ hr hc => exact drop ht hc id _
      | killExt pre post id t o c ht hc => exact drop ht hc id _
      | foreign call _ => exact ⟨ih.tasks, ih.trace⟩
      | upgrade arg log s ht hp => exact ⟨ih.tasks, ih.trace⟩
    exact ⟨.step _ _ ih.reach hs, hcached, main.1, main.2⟩

/-! ## The claims -/

/-- The execution is one of the world model. -/
theorem C72_reachable {w : World} {cache : CachedEstimate} {h : List PriceStep} (hp : Priced w cache h) : Reachable w := (pricedInv hp).reach

/-- The cached estimate was made from a fee history that arrived at its timestamp. -/
theorem C72_cache {w : World} {ts : Nat} {g : GasFeeEstimate} {h : List PriceStep} (hp : Priced w (some (ts, g)) h) :
    ∃ id minimum history, .answered id ts minimum history ∈ h ∧ estimateTransactionFee minimum history = .ok g :=
  (pricedInv hp).cached ts g rfl

/-- A created transaction is priced with an estimate that the message which created it may use: the priority fee is the estimated one,
and the maximal fee covers base fee and priority fee. Without call data it is twice the base fee plus the priority fee. -/
theorem C72_created {w : World} {cache : CachedEstimate} {h : List PriceStep} (hp : Priced w cache h) {id : Nat} {i : LedgerBurnIndex} {tx : Tx}
    (he : (id, .createdTransaction i tx) ∈ w.trace) :
    ∃ g, Fresh h id g ∧ Covers g tx ∧ tx.maxPriorityFeePerGas = g.maxPriorityFeePerGas ∧
      (tx.data = [] → tx.maxFeePerGas = 2 * g.baseFeePerGas + g.maxPriorityFeePerGas) :=
  (pricedInv hp).trace _ he

/-- So is a replacement, which may pay more. -/
theorem C72_replaced {w : World} {cache : CachedEstimate} {h : List PriceStep} (hp : Priced w cache h) {id : Nat} {i : LedgerBurnIndex} {tx : Tx}
    (he : (id, .replacedTransaction i tx) ∈ w.trace) : ∃ g, Fresh h id g ∧ Covers g tx :=
  (pricedInv hp).trace _ he

/-- The fee that a user pays for the withdrawal of tokens is 65000 times the maximal fee of such an estimate, at most 2^256 - 1. -/
theorem C72_charged {w : World} {cache : CachedEstimate} {h : List PriceStep} (hp : Priced w cache h) {id : Nat} {r : Erc20Request}
    (he : (id, .acceptedErc20WithdrawalRequest r) ∈ w.trace) :
    ∃ g, Fresh h id g ∧ r.maxTransactionFee = min ((2 * g.baseFeePerGas + g.maxPriorityFeePerGas) * 65000) (2 ^ 256 - 1) := by
  obtain ⟨g, hf, hr⟩ := (pricedInv hp).trace _ he
  refine ⟨g, hf, hr.trans ?_⟩
  obtain ⟨_, _, _, _, _, k⟩ := hf.estimated
  have hs := estimate_sum k
  have hmax : g.maxFeePerGas = 2 * g.baseFeePerGas + g.maxPriorityFeePerGas := by
    rw [C38_max_fee]; womega
  show (cmul g.maxFeePerGas erc20GasLimit).getD u256Max = _
  rw [hmax]
  unfold cmul erc20GasLimit u256Max U256
  split
  · simp only [Option.getD_some]
    exact (Nat.min_eq_left (by womega)).symm
  · simp only [Option.getD_none]
    exact (Nat.min_eq_right (by womega)).symm

/-- What the price query answers was estimated from a fee history that arrived at the time it names. -/
theorem C72_price {w : World} {cache : CachedEstimate} {h : List PriceStep} (hp : Priced w cache h) {token : Option Principal} {r : PriceReply}
    (hr : transactionPrice w.mem.m.st cache token = .ok r) :
    ∃ ts id minimum history g, r.timestamp = some ts ∧ .answered id ts minimum history ∈ h ∧ estimateTransactionFee minimum history = .ok g ∧
      r.maxPriorityFeePerGas = g.maxPriorityFeePerGas ∧ r.maxFeePerGas = 2 * g.baseFeePerGas + g.maxPriorityFeePerGas := by
  obtain ⟨ts, g, rfl, h1, h2, h3, _⟩ := C38_price.1 hr
  obtain ⟨id, m, f, k1, k2⟩ := C72_cache hp
  have := estimate_sum k2
  exact ⟨ts, id, m, f, g, h1, k1, k2, h3, by rw [h2, C38_max_fee]; womega⟩

omit [Keccak] in
/-- Every price is real: it was made from a fee history that arrived, with the minimum of the priority fee configured then. -/
theorem C72_real {h : List PriceStep} {id : Nat} {g : GasFeeEstimate} (k : Fresh h id g) :
    ∃ id' at' minimum history, .answered id' at' minimum history ∈ h ∧ estimateTransactionFee minimum history = .ok g := k.estimated

end

namespace Example
attribute [local instance] keccak

/-- An action, or the arrival of the fee history of C38 for a suspended task. -/
inductive PricedAction where
  | act (x : Action)
  | fees (k now : Nat)

def awaitsFees : Task → Bool
  | .ext .gas | .ext .retrieveGas | .ext (.erc20Gas _) => true
  | _ => false

theorem awaitsFees_iff (t : Task) : awaitsFees t = true ↔ t.AwaitsFees := by
  rcases t with t | t <;> cases t <;> simp [awaitsFees, Task.AwaitsFees]

/-- Carry out an action; the estimate from the fee history is known for a minimum of 1. -/
def pricedAct (w : World) (cache : CachedEstimate) (h : List PriceStep) : PricedAction → Option (World × CachedEstimate × List PriceStep)
  | .act (.start msg now) =>
    if msg.estimate?.all (· == cachedEstimate cache now) then
      match msg.run w.mem now with
      | .ok (c, n) => some ((w.begin msg).advance w.tasks [] w.nextId c n, cache, h ++ [.began w.nextId now])
      | .error _ => none
    else none
  | .act x =>
    match w.act x with
    | some w' => if w'.nextId == w.nextId && w.tasks.all (fun p => !awaitsFees p.task) then some (w', cache, h) else none
    | none => none
  | .fees k now =>
    match w.tasks[k]? with
    | some ⟨id, .ext t, _⟩ =>
      if awaitsFees (.ext t) && w.mem.m.st.minMaxPriorityFeePerGas == 1 then
        match t.resume w.mem now (.gas (some ⟨13, 4⟩)) with
        | some (.ok (c, n)) => some (w.advance (w.tasks.take k) (w.tasks.drop (k + 1)) id c n, some (now, ⟨13, 4⟩),
            h ++ [.answered id now 1 feeHistory])
        | _ => none
      else none
    | _ => none

theorem pricedAct_priced {w w' : World} {cache cache' : CachedEstimate} {h h' : List PriceStep} {x : PricedAction} (hp : Priced w cache h)
    (hx : pricedAct w cache h x = some (w', cache', h')) : Priced w' cache' h' := by
  have est : estimateTransactionFee 1 feeHistory = .ok ⟨13, 4⟩ :=
    C38_estimate.2 ⟨⟨[9, 10, 12, 11, 10], rfl⟩, ⟨4, C38_median.2 (by decide +kernel), rfl⟩, by decide⟩
  unfold pricedAct at hx
  split at hx
  · rename_i msg now
    split at hx
    · rename_i hc
      split at hx
      · rename_i c n hr
        rw [Option.some.injEq, Prod.mk.injEq, Prod.mk.injEq] at hx
        obtain ⟨rfl, rfl, rfl⟩ := hx
        refine .start w cache h msg now c n hp ?_ hr
        intro e he
        rw [he, Option.all_some] at hc
        exact eq_of_beq hc
      · cases hx
    · cases hx
  · split at hx
    · rename_i w1 hw
      split at hx
      · rename_i hc
        rw [Option.some.injEq, Prod.mk.injEq, Prod.mk.injEq] at hx
        obtain ⟨rfl, rfl, rfl⟩ := hx
        rw [Bool.and_eq_true, beq_iff_eq, List.all_eq_true] at hc
        refine .other w w1 cache cache h hp (World.act_step hw) (.inl hc.1) ?_ (.inl rfl)
        intro p hpm haw
        have := hc.2 p hpm
        rw [(awaitsFees_iff _).2 haw] at this
        cases this
      · cases hx
    · cases hx
  · rename_i k now
    split at hx
    · rename_i id t o hk
      split at hx
      · rename_i hc
        rw [Bool.and_eq_true, beq_iff_eq] at hc
        split at hx
        · rename_i c n hr
          rw [Option.some.injEq, Prod.mk.injEq, Prod.mk.injEq] at hx
          obtain ⟨rfl, rfl, rfl⟩ := hx
          have := Priced.fees w cache (some (now, ⟨13, 4⟩)) h (w.tasks.take k) (w.tasks.drop (k + 1)) id t o feeHistory (some ⟨13, 4⟩) now c n hp
            (split_at hk) ((awaitsFees_iff _).1 hc.1) (by rw [hc.2, refreshEstimate, est]) hr
          rwa [hc.2] at this
        · cases hx
      · cases hx
    · cases hx

def pricedPlay (w : World) (cache : CachedEstimate) (h : List PriceStep) : List PricedAction → Option (World × CachedEstimate × List PriceStep)
  | [] => some (w, cache, h)
  | x :: t =>
    match pricedAct w cache h x with
    | some (w', cache', h') => pricedPlay w' cache' h' t
    | none => none

theorem pricedPlay_priced {l : List PricedAction} : ∀ {w w' : World} {cache cache' : CachedEstimate} {h h' : List PriceStep}, Priced w cache h →
    pricedPlay w cache h l = some (w', cache', h') → Priced w' cache' h' := by
  induction l with
  | nil => intro w w' cache cache' h h' hp hx; cases hx; exact hp
  | cons x t ih =>
    intro w w' cache cache' h h' hp hx
    simp only [pricedPlay] at hx
    split at hx
    · rename_i h1
      exact ih (pricedAct_priced hp h1) hx
    · cases hx

def pricedAfter (arg : InitArg) (l : List PricedAction) (p : World → CachedEstimate → List PriceStep → Bool) : Bool :=
  match State.ofInit arg with
  | .ok s =>
    match pricedPlay (World.initial minter arg s []) none [] l with
    | some (w, cache, h) => p w cache h
    | none => false
  | .error _ => false

theorem pricedAfter_priced {arg : InitArg} {l : List PricedAction} {p : World → CachedEstimate → List PriceStep → Bool}
    (hx : pricedAfter arg l p = true) : ∃ w cache h, Priced w cache h ∧ p w cache h = true := by
  unfold pricedAfter at hx
  split at hx
  · rename_i s hs
    split at hx
    · rename_i w cache h hw
      exact ⟨w, cache, h, pricedPlay_priced (.init minter arg s [] hs (by simp)) hw, hx⟩
    · cases hx
  · cases hx

/-- Alice withdraws tokens when there is no estimate; the fee history that arrives gives the fee. Bob withdraws native tokens. A round
of sending that begins within 30 seconds uses the cached estimate; one that begins later asks again. -/
theorem C72_example : ∃ w cache h, Priced w cache h ∧ decide (
    (w.trace.filterMap fun | (id, .acceptedErc20WithdrawalRequest r) => some (id, r.maxTransactionFee) | _ => none) = [(1, 65000 * 30)] ∧
    (w.trace.filterMap fun | (id, .createdTransaction i tx) => some (id, i, tx.maxFeePerGas, tx.maxPriorityFeePerGas, tx.data.length) | _ => none) =
      [(3, 1, 30, 4, 68), (3, 3, 30, 4, 0)] ∧
    (w.tasks.map fun | ⟨id, .ext .retrieveGas, _⟩ => (id, true) | ⟨id, _, _⟩ => (id, false)) = [(4, true)] ∧
    (h.map fun | .began id now => (id, now, true) | .answered id now _ _ => (id, now, false)) =
      [(0, 4, true), (1, 5, true), (1, 7, false), (2, 12, true), (3, 30000000006, true), (4, 30000000007, true)]) = true :=
  pricedAfter_priced (arg := initArg) (l := [.act (.start (.addToken manager usdcArg) 4),
    .act (.start (.withdrawErc20 alice 700 usdcLedger to none) 5), .fees 0 7, .act (.execute 0), .act (.deliver 0 8),
    .act (.execute 0), .act (.deliver 0 9), .act (.execute 0), .act (.deliver 0 10),
    .act (.start (.withdrawNative bob 5000000000 to) 12), .act (.execute 0), .act (.deliver 0 13), .act (.execute 0), .act (.deliver 0 14),
    .act (.start (.retrieve (some ⟨13, 4⟩)) 30000000006), .act (.answer 0 (.count (some 5)) 30000000006), .act (.kill 0),
    .act (.start (.retrieve none) 30000000007)]) (by decide +kernel)

end Example
end EvmMinter
