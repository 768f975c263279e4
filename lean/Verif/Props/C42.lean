import Verif.Lemmas.Status
import Verif.Spec.ExampleRun
import Verif.Props.C15
/-!
# C42: the withdrawal queue is served in order and fairly
-/

namespace EvmMinter

open Spec Transactions

/-- The request pays for a transaction at the estimated fees: a native withdrawal from its amount, at twice the base
fee plus the priority fee for 21000 gas; an ERC-20 withdrawal from the fee paid, at the base fee plus the priority
fee for 65000 gas. -/
def Spec.Affordable (g : GasFeeEstimate) : Request → Prop
  | .native q => 21000 * (2 * g.baseFeePerGas + g.maxPriorityFeePerGas) ≤ q.withdrawalAmount
  | .erc20 q => 65000 * (g.baseFeePerGas + g.maxPriorityFeePerGas) ≤ q.maxTransactionFee

instance (g : GasFeeEstimate) (r : Request) : Decidable (Affordable g r) := by
  cases r <;> unfold Affordable <;> infer_instance

section
variable [Keccak]

omit [Keccak] in
theorem size_of_nodup {K : Type} [DecidableEq K] [TOrd K] (m : FSet K) (L : List K) (hL : L.Nodup)
    (h : ∀ k, k ∈ L ↔ ∃ v, m.get k = some v) : m.size = L.length := by
  have : m.keys.Perm L := by
    rw [List.perm_ext_iff_of_nodup m.keys_nodup hL]
    intro k; rw [FMap.mem_keys, h]
  have := this.length_eq
  rw [← this]
  simp [FMap.size, FMap.keys]

omit [Keccak] in
theorem foldl_insert_get {K : Type} [DecidableEq K] [TOrd K] (l : List K) (m : FSet K) (k : K) :
    (∃ v, (l.foldl (fun m k => m.insert k ()) m).get k = some v) ↔ k ∈ l ∨ ∃ v, m.get k = some v := by
  induction l generalizing m with
  | nil => simp
  | cons a t ih =>
    rw [List.foldl_cons, ih, List.mem_cons]
    simp only [FMap.get_insert]
    constructor
    · rintro (h | ⟨v, h⟩)
      · exact .inl (.inr h)
      · split at h
        · rename_i e; exact .inl (.inl e)
        · exact .inr ⟨v, h⟩
    · rintro ((h | h) | ⟨v, h⟩)
      · exact .inr ⟨(), by rw [if_pos h]⟩
      · exact .inl h
      · right
        split
        · exact ⟨(), rfl⟩
        · exact ⟨v, h⟩

/-- **C42.** A batch consists of the oldest requests of the queue: at most as many as asked for, and at most as many
as keep the number of nonces in use (created or sent, not finalized) within 1000. -/
theorem C42_oldest_first {log : List Event} {s : State} (h : Run log s) (hn : NonceNeverLowered log) (size : Nat)
    (inUse : List TransactionNonce) (hd : inUse.Nodup)
    (hu : ∀ n, n ∈ inUse ↔ (∃ i c, s.txs.created.getEntry n = some (i, c)) ∨ ∃ i l, s.txs.sent.getEntry n = some (i, l)) :
    ∃ k rest, s.txs.pending = s.txs.requestsBatch size ++ rest ∧ (s.txs.requestsBatch size).length = k ∧
      k ≤ size ∧ (k = 0 ∨ inUse.length + k ≤ 1000) ∧
      (rest = [] ∨ k = size ∨ 1000 ≤ inUse.length + k) := by
  obtain ⟨inv, _⟩ := run_txInv h hn
  have hsize : ((s.txs.created.keys ++ s.txs.sent.keys).foldl (fun m k => m.insert k ()) (∅ : FSet TransactionNonce)).size =
      inUse.length := by
    refine size_of_nodup _ _ hd ?_
    intro k
    rw [foldl_insert_get, hu]
    simp only [MKM.getEntry_eq]
    have hc : k ∈ s.txs.created.keys ↔ ∃ i c, s.txs.created.Has k i c := by
      unfold MKM.keys; rw [FMap.mem_keys]
      constructor
      · rintro ⟨i, hi⟩; obtain ⟨v, hv⟩ := inv.cw.alt_of_key hi; exact ⟨i, v, hi, hv⟩
      · rintro ⟨i, c, hi, _⟩; exact ⟨i, hi⟩
    have hs : k ∈ s.txs.sent.keys ↔ ∃ i c, s.txs.sent.Has k i c := by
      unfold MKM.keys; rw [FMap.mem_keys]
      constructor
      · rintro ⟨i, hi⟩; obtain ⟨v, hv⟩ := inv.sw.alt_of_key hi; exact ⟨i, v, hi, hv⟩
      · rintro ⟨i, c, hi, _⟩; exact ⟨i, hi⟩
    rw [List.mem_append, hc, hs]
    simp
  unfold requestsBatch
  simp only [hsize]
  refine ⟨_, s.txs.pending.drop (min (1000 - inUse.length) size), (List.take_append_drop _ _).symm, rfl, ?_, ?_, ?_⟩
  · rw [List.length_take]; omega
  · rw [List.length_take]; omega
  · rw [List.length_take, List.drop_eq_nil_iff]; omega

omit [Keccak] in
theorem maxFee_spec (g : GasFeeEstimate) :
    (g.maxFeePerGas = 2 * g.baseFeePerGas + g.maxPriorityFeePerGas ∧
      2 * g.baseFeePerGas + g.maxPriorityFeePerGas < U256) ∨
    (g.maxFeePerGas = u256Max ∧ U256 ≤ 2 * g.baseFeePerGas + g.maxPriorityFeePerGas) := by
  unfold GasFeeEstimate.maxFeePerGas GasFeeEstimate.checkedMaxFeePerGas cadd cmul
  have hu := u256_eq
  by_cases h1 : g.baseFeePerGas * 2 < U256
  · rw [if_pos h1]
    simp only [Option.bind]
    by_cases h2 : g.baseFeePerGas * 2 + g.maxPriorityFeePerGas < U256
    · rw [if_pos h2]; left; simp only [Option.getD]; womega
    · rw [if_neg h2]; right; simp only [Option.getD, true_and]; womega
  · rw [if_neg h1]; right; simp only [Option.bind, Option.getD, true_and]; womega

omit [Keccak] in
/-- Creation succeeds exactly for the requests that pay for it. -/
theorem create_iff {r : Request} (n : TransactionNonce) {g : GasFeeEstimate} (net : EvmNetwork)
    (hr : ∀ q, r = .native q → q.withdrawalAmount < 2 ^ 256 - 1)
    (hb : r.Bounded) (hz : 0 < g.baseFeePerGas ∨ 0 < g.maxPriorityFeePerGas) :
    (Affordable g r ∧ ∃ tx, createTransaction r n g (estimateGasLimit r) net = .ok (.ok tx) ∧ tx.nonce = n ∧
      r.destination = tx.destination ∧ amountOk r tx = true) ∨
    (¬ Affordable g r ∧ ∃ e, createTransaction r n g (estimateGasLimit r) net = .ok (.error e)) := by
  have hu := u256_eq
  have hu2 : U256 = 2 ^ 256 := rfl
  cases r with
  | native q =>
    have hq : q.withdrawalAmount < u256Max := by have := hr q rfl; womega
    have key : ∀ o, csub q.withdrawalAmount (g.toPrice 21000).maxTransactionFee = o →
        createTransaction (.native q) n g (estimateGasLimit (.native q)) net =
        (match o with
        | none => .ok (.error ⟨q.ledgerBurnIndex, q.withdrawalAmount, (g.toPrice 21000).maxTransactionFee⟩)
        | some amount => .ok (.ok ⟨net.chainId, n, g.maxPriorityFeePerGas, g.maxFeePerGas, 21000, q.destination,
            amount, [], []⟩)) := by
      rintro _ rfl
      simp only [createTransaction, estimateGasLimit, nativeGasLimit, GasFeeEstimate.toPrice]
      cases csub q.withdrawalAmount _ <;> rfl
    have hfee : (21000 * (2 * g.baseFeePerGas + g.maxPriorityFeePerGas) < U256 ∧
        (g.toPrice 21000).maxTransactionFee = 21000 * (2 * g.baseFeePerGas + g.maxPriorityFeePerGas)) ∨
        (U256 ≤ 21000 * (2 * g.baseFeePerGas + g.maxPriorityFeePerGas) ∧
          (g.toPrice 21000).maxTransactionFee = u256Max) := by
      have hm := maxFee_spec g
      rcases maxTransactionFee_spec (g.toPrice 21000) with ⟨h1, h2⟩ | ⟨h1, h2⟩ <;>
        dsimp only [GasFeeEstimate.toPrice] at h1 h2 ⊢ <;> womega
    by_cases ha : 21000 * (2 * g.baseFeePerGas + g.maxPriorityFeePerGas) ≤ q.withdrawalAmount
    · left
      have hc : csub q.withdrawalAmount (g.toPrice 21000).maxTransactionFee =
          some (q.withdrawalAmount - (g.toPrice 21000).maxTransactionFee) := by
        unfold csub; rw [if_pos (by womega)]
      refine ⟨ha, _, key _ hc, rfl, rfl, ?_⟩
      simp only [amountOk, decide_eq_true_eq]
      womega
    · right
      have hc : csub q.withdrawalAmount (g.toPrice 21000).maxTransactionFee = none := by
        unfold csub; rw [if_neg (by womega)]
      exact ⟨ha, _, key _ hc⟩
  | erc20 q =>
    have hq : q.maxTransactionFee < U256 := hb.2.1
    have hmin : (g.minMaxFeePerGas = g.baseFeePerGas + g.maxPriorityFeePerGas ∧
        g.baseFeePerGas + g.maxPriorityFeePerGas < U256) ∨
        (g.minMaxFeePerGas = u256Max ∧ U256 ≤ g.baseFeePerGas + g.maxPriorityFeePerGas) := by
      unfold GasFeeEstimate.minMaxFeePerGas cadd
      by_cases h : g.baseFeePerGas + g.maxPriorityFeePerGas < U256
      · rw [if_pos h]; exact .inl ⟨rfl, h⟩
      · rw [if_neg h]; exact .inr ⟨rfl, Nat.not_lt.1 h⟩
    have key : createTransaction (.erc20 q) n g (estimateGasLimit (.erc20 q)) net =
        if g.minMaxFeePerGas > q.maxTransactionFee / 65000 then
          .ok (.error ⟨q.nativeLedgerBurnIndex, q.maxTransactionFee,
            (transactionCost g.minMaxFeePerGas 65000).getD u256Max⟩)
        else .ok (.ok ⟨net.chainId, n, g.maxPriorityFeePerGas, q.maxTransactionFee / 65000, 65000,
          q.erc20ContractAddress, 0, Erc20Transfer.encode ⟨q.destination, q.withdrawalAmount⟩, []⟩) := by
      simp only [createTransaction, estimateGasLimit, erc20GasLimit]
      by_cases h : g.minMaxFeePerGas > q.maxTransactionFee / 65000
      · rw [if_pos h]
        show (if g.minMaxFeePerGas > q.maxTransactionFee / 65000 then _ else _) = _
        rw [if_pos h]; rfl
      · rw [if_neg h]
        show (if g.minMaxFeePerGas > q.maxTransactionFee / 65000 then _ else _) = _
        rw [if_neg h]; rfl
    by_cases ha : 65000 * (g.baseFeePerGas + g.maxPriorityFeePerGas) ≤ q.maxTransactionFee
    · left
      exact ⟨ha, _, by rw [key, if_neg (by womega)], rfl, rfl, rfl⟩
    · right
      exact ⟨ha, _, by rw [key, if_pos (by womega)]⟩

/-- A creation of a transaction for a request of the queue does not panic. -/
theorem created_total {t : Transactions} (inv : t.TxInv) {r : Request} (hr : r ∈ t.pending) {tx : Tx}
    (hnn : tx.nonce = t.nextNonce) (hlt : t.nextNonce + 1 < U256) (hd : r.destination = tx.destination)
    (ha : amountOk r tx = true) : ∃ t', t.recordCreatedTransaction r.burnIndex tx = .ok t' := by
  have hp := inv.pendProc r hr
  have hf : t.pending.find? (fun r' => r'.burnIndex == r.burnIndex) = some r := by
    cases hf : t.pending.find? (fun r' => r'.burnIndex == r.burnIndex) with
    | none => rw [List.find?_eq_none] at hf; exact absurd (hf r hr) (by simp)
    | some r' =>
      have h1 := List.mem_of_find?_eq_some hf
      have h2 : r'.burnIndex = r.burnIndex := by simpa using List.find?_some hf
      rw [pairwise_unique inv.pend h1 hr h2]
  have hins : ∃ c, t.created.tryInsert tx.nonce r.burnIndex ⟨tx, strategyOf r⟩ = .ok c := by
    refine ⟨_, MKM.tryInsert_ok.2 ⟨?_, ?_, rfl⟩⟩
    · cases hg : t.created.byAlt.get r.burnIndex with
      | none => rfl
      | some v =>
        obtain ⟨k, hk⟩ := inv.cw.key_of_alt hg
        obtain ⟨r', h', _⟩ := inv.cProc k _ v ⟨hk, hg⟩
        rw [hp] at h'; cases h'
    · cases hg : t.created.byKey.get tx.nonce with
      | none => rfl
      | some i =>
        obtain ⟨v, hv⟩ := inv.cw.alt_of_key hg
        have := (inv.cN _ i v ⟨hg, hv⟩).1
        rw [hnn] at this; exact absurd this (Nat.lt_irrefl _)
  obtain ⟨c, hc⟩ := hins
  have hmay : t.maybeReimburse.get r.burnIndex = none := by
    cases hg : t.maybeReimburse.get r.burnIndex with
    | none => rfl
    | some v =>
      rcases (inv.maybe r.burnIndex).1 (by simp [hg]) with ⟨n, x, hx⟩ | ⟨n, x, hx⟩
      · obtain ⟨r', h', _⟩ := inv.cProc _ _ _ hx; rw [hp] at h'; cases h'
      · obtain ⟨r', h', _⟩ := inv.sProc _ _ _ hx; rw [hp] at h'; cases h'
  refine ⟨{ t.removeWithdrawalRequest r with
    nextNonce := t.nextNonce + 1
    created := c
    processed := t.processed.insert r.burnIndex r
    maybeReimburse := t.maybeReimburse.insert r.burnIndex () }, ?_⟩
  have hc' : (t.removeWithdrawalRequest r).created.tryInsert tx.nonce r.burnIndex ⟨tx, strategyOf r⟩ = .ok c := hc
  unfold recordCreatedTransaction
  rw [hf]
  rw [hnn] at hc'
  simp only [expect, hd, ha, hnn, beq_self_eq_true, cinc, cadd, if_pos hlt, ensure, if_true, Res.ok_bind, hc']
  have h1 : (!(t.removeWithdrawalRequest r).processed.contains r.burnIndex) = true := by
    show (!t.processed.contains r.burnIndex) = true
    simp [FMap.contains, hp]
  have h2 : (!(t.removeWithdrawalRequest r).maybeReimburse.contains r.burnIndex) = true := by
    show (!t.maybeReimburse.contains r.burnIndex) = true
    simp [FMap.contains, hmay]
  simp only [h1, h2, if_true, Res.ok_bind]
  rfl

omit [Keccak] in
/-- Rescheduling a request of the queue does not panic. -/
theorem reschedule_total {t : Transactions} (inv : t.TxInv) {r : Request} (hr : r ∈ t.pending) :
    t.reschedule r = .ok (t.setP (pendingWithout t.pending r ++ [r])) := by
  have hp := inv.pendProc r hr
  have h1 : (t.pending.filter (fun r' => r'.burnIndex == r.burnIndex)) = [r] := by
    have hpend := inv.pend
    revert hr hpend
    generalize t.pending = p
    intro hr hpend
    induction p with
    | nil => cases hr
    | cons x l ih =>
      rw [List.pairwise_cons] at hpend
      rw [List.filter_cons]
      rcases List.mem_cons.1 hr with rfl | hr
      · simp only [beq_self_eq_true, if_true]
        congr 1
        rw [List.filter_eq_nil_iff]
        intro a ha
        simpa using Ne.symm (hpend.1 a ha)
      · have : (x.burnIndex == r.burnIndex) = false := by simpa using hpend.1 r hr
        rw [this]; simp only [Bool.false_eq_true, if_false]
        exact ih hr hpend.2
  have hc : t.created.containsAlt r.burnIndex = false := by
    rw [Bool.eq_false_iff]; intro h
    obtain ⟨k, v, hh⟩ := (MKM.containsAlt_eq inv.cw).1 h
    obtain ⟨r', h', _⟩ := inv.cProc _ _ _ hh; rw [hp] at h'; cases h'
  have hs : t.sent.containsAlt r.burnIndex = false := by
    rw [Bool.eq_false_iff]; intro h
    obtain ⟨k, v, hh⟩ := (MKM.containsAlt_eq inv.sw).1 h
    obtain ⟨r', h', _⟩ := inv.sProc _ _ _ hh; rw [hp] at h'; cases h'
  have hf : t.finalized.containsAlt r.burnIndex = false := by
    rw [Bool.eq_false_iff]; intro h
    obtain ⟨k, v, hh⟩ := (MKM.containsAlt_eq inv.fw).1 h
    obtain ⟨r', h', _⟩ := inv.fProc _ _ _ hh; rw [hp] at h'; cases h'
  have hany : ((t.pending.filter (fun r' => !(r' == r))).any fun r' => r'.burnIndex == r.burnIndex) = false := by
    rw [List.any_eq_false]
    intro x hx
    obtain ⟨hx, hne⟩ := List.mem_filter.1 hx
    simp only [beq_iff_eq]
    intro he
    have := pairwise_unique inv.pend hx hr he
    simp [this] at hne
  unfold reschedule
  rw [h1]
  simp only [List.length_singleton, beq_self_eq_true, ensure, if_true]
  unfold recordWithdrawalRequest removeWithdrawalRequest
  simp only [hany, hc, hs, hf]
  rfl

/-- The events of a batch: a transaction for each of the requests. -/
def createdEvents (rs : List Request) (txs : List Tx) : List Event :=
  List.zipWith (fun r tx => .createdTransaction r.burnIndex tx) rs txs

theorem createLoop_spec {g : GasFeeEstimate} (hg : g.Bounded)
    (hz : 0 < g.baseFeePerGas ∨ 0 < g.maxPriorityFeePerGas) (l : List Request) :
    ∀ (m : Minter) (rest : List Request), Run m.log m.st → NonceNeverLowered m.log →
      m.st.txs.pending = l ++ rest → m.st.txs.nextNonce + l.length < U256 →
      (∀ q, Request.native q ∈ l → q.withdrawalAmount < 2 ^ 256 - 1) →
      ∃ m' txs, m.createLoop g l = .ok m' ∧ Run m'.log m'.st ∧
        m'.log = m.log ++ createdEvents (l.filter fun r => decide (Affordable g r)) txs ∧
        txs.map (·.nonce) = List.range' m.st.txs.nextNonce (l.filter fun r => decide (Affordable g r)).length ∧
        m'.st.txs.pending = rest ++ l.filter (fun r => !decide (Affordable g r)) := by
  induction l with
  | nil =>
    intro m rest hr _ hp _ _
    exact ⟨m, [], rfl, hr, by simp [createdEvents], by simp, by simpa using hp⟩
  | cons r l ih =>
    intro m rest hr hn hp hlt hq
    obtain ⟨inv, hl, _⟩ := run_txInv hr hn
    have hmem : r ∈ m.st.txs.pending := by rw [hp]; simp
    have hbound := run_bounded hr ((hl.acc r).2 (.inl hmem))
    have hwithout : pendingWithout m.st.txs.pending r = l ++ rest := by
      have hpend := inv.pend
      rw [hp] at hpend ⊢
      rw [List.cons_append, List.pairwise_cons] at hpend
      unfold pendingWithout
      rw [List.cons_append, List.filter_cons]
      simp only [beq_self_eq_true, Bool.not_true, Bool.false_eq_true, if_false]
      rw [List.filter_eq_self]
      intro a ha
      have : a ≠ r := fun e => hpend.1 a ha (by rw [e])
      simpa using this
    simp only [List.length_cons] at hlt
    rcases create_iff m.st.txs.nextNonce m.st.evmNetwork (fun q e => hq q (by simp [e])) hbound hz with
      ⟨ha, tx, h1, h2, h3, h4⟩ | ⟨ha, e, h1⟩
    · obtain ⟨t', ht'⟩ := created_total inv hmem h2 (by womega) h3 h4
      have happ : applyEvent m.st (.createdTransaction r.burnIndex tx) = .ok { m.st with txs := t' } := by
        simp only [applyEvent]; unfold liftTxs; rw [ht']; rfl
      have hone : m.createOne g r = .ok ⟨{ m.st with txs := t' }, m.log ++ [.createdTransaction r.burnIndex tx]⟩ := by
        unfold Minter.createOne
        rw [h1]
        show m.processEvent _ = _
        unfold Minter.processEvent
        rw [happ]; rfl
      have hem : Emits m.st (.createdTransaction r.burnIndex tx) := ⟨r, g, hg, hmem, rfl, h1⟩
      have hr' := Run.event _ _ _ _ hr hem happ
      obtain ⟨r', created, e1, _, e2, e3, e4, e5, e6, e7, e8, e9, e10⟩ := recordCreatedTransaction_ok ht'
      have : r' = r := pairwise_unique inv.pend e1 hmem e2
      subst this
      have hn' : NonceNeverLowered (m.log ++ [.createdTransaction r'.burnIndex tx]) := by
        intro l₁ a l₂ n he hna
        rcases List.eq_nil_or_concat l₂ with rfl | ⟨l₂', x, rfl⟩
        · have := (List.append_inj' he rfl).2; simp at this
        · have he' : m.log ++ [.createdTransaction r'.burnIndex tx] = (l₁ ++ .upgrade a :: l₂') ++ [x] := by simpa using he
          exact hn l₁ a l₂' n (List.append_inj' he' rfl).1 hna
      obtain ⟨m', txs, g1, g2, g3, g4, g5⟩ := ih ⟨{ m.st with txs := t' }, m.log ++ [.createdTransaction r'.burnIndex tx]⟩
        rest hr' hn' (by show t'.pending = _; rw [e10]; exact hwithout)
        (by show t'.nextNonce + _ < _; rw [e10]; show m.st.txs.nextNonce + 1 + _ < _; womega)
        (fun q hq' => hq q (by simp [hq']))
      refine ⟨m', tx :: txs, ?_, g2, ?_, ?_, ?_⟩
      · unfold Minter.createLoop; rw [hone]; exact g1
      · rw [g3, List.filter_cons_of_pos (by simpa using ha)]
        simp [createdEvents]
      · rw [List.filter_cons_of_pos (by simpa using ha), List.map_cons, g4, h2, List.length_cons, List.range'_succ]
        show _ :: List.range' t'.nextNonce _ = _
        rw [e10]
      · rw [g5, List.filter_cons_of_neg (by simpa using ha)]
    · have hres := reschedule_total inv hmem
      have hone : m.createOne g r = .ok { m with st := { m.st with txs := m.st.txs.setP (l ++ rest ++ [r]) } } := by
        unfold Minter.createOne
        rw [h1]
        show (m.st.txs.reschedule r >>= _) = _
        rw [hres, hwithout]; rfl
      have hr' := Run.reschedule _ _ r _ hr hmem hres
      rw [hwithout] at hr'
      obtain ⟨m', txs, g1, g2, g3, g4, g5⟩ := ih { m with st := { m.st with txs := m.st.txs.setP (l ++ rest ++ [r]) } }
        (rest ++ [r]) hr' hn (by show l ++ rest ++ [r] = _; simp)
        (by show m.st.txs.nextNonce + _ < _; womega) (fun q hq' => hq q (by simp [hq']))
      refine ⟨m', txs, ?_, g2, ?_, ?_, ?_⟩
      · unfold Minter.createLoop; rw [hone]; exact g1
      · rw [g3, List.filter_cons_of_neg (by simpa using ha)]
      · rw [List.filter_cons_of_neg (by simpa using ha)]; exact g4
      · rw [g5, List.filter_cons_of_pos (by simpa using ha)]; simp

/-- **C42.** One round of creating transactions never panics and serves the batch in order: each request that pays
for its transaction gets one, with consecutive nonces, and leaves the queue; each request that does not is moved
behind all others, once; the requests outside of the batch keep their order and move to the front.
(The estimated fee must not be zero: otherwise recording the transaction panics, see `C42_zero_fee_panics`.) -/
theorem C42_round {m : Minter} (h : Run m.log m.st) (hn : NonceNeverLowered m.log) {g : GasFeeEstimate}
    (hg : g.Bounded) (hz : 0 < g.baseFeePerGas ∨ 0 < g.maxPriorityFeePerGas)
    (hq : ∀ q, Request.native q ∈ m.st.txs.pending → q.withdrawalAmount < 2 ^ 256 - 1)
    (hnonce : m.st.txs.nextNonce + 5 < 2 ^ 256) {batch rest : List Request}
    (hb : m.st.txs.requestsBatch 5 = batch) (hp : m.st.txs.pending = batch ++ rest) :
    ∃ m' txs, m.createBatch g = .ok m' ∧ Run m'.log m'.st ∧
      m'.log = m.log ++ createdEvents (batch.filter fun r => decide (Affordable g r)) txs ∧
      txs.map (·.nonce) = List.range' m.st.txs.nextNonce (batch.filter fun r => decide (Affordable g r)).length ∧
      m'.st.txs.pending = rest ++ batch.filter (fun r => !decide (Affordable g r)) := by
  unfold Minter.createBatch
  rw [hb]
  refine createLoop_spec hg hz batch m rest h hn hp ?_ ?_
  · have : batch.length ≤ 5 := by
      rw [← hb]; unfold requestsBatch; simp only [List.length_take]; omega
    have : U256 = 2 ^ 256 := rfl
    womega
  · intro q hqq
    exact hq q (by rw [hp]; simp [hqq])

/-- **C42.** A request outside of the batch gains the positions of the whole batch, so that no request waits behind
requests that do not pay. -/
theorem C42_advances {m m' : Minter} (h : Run m.log m.st) (hn : NonceNeverLowered m.log) {g : GasFeeEstimate}
    (hg : g.Bounded) (hz : 0 < g.baseFeePerGas ∨ 0 < g.maxPriorityFeePerGas)
    (hq : ∀ q, Request.native q ∈ m.st.txs.pending → q.withdrawalAmount < 2 ^ 256 - 1)
    (hnonce : m.st.txs.nextNonce + 5 < 2 ^ 256) (hm : m.createBatch g = .ok m') {i : Nat} {r : Request}
    (hi : m.st.txs.pending[i]? = some r) (hout : (m.st.txs.requestsBatch 5).length ≤ i) :
    m'.st.txs.pending[i - (m.st.txs.requestsBatch 5).length]? = some r := by
  have hp : m.st.txs.pending = m.st.txs.requestsBatch 5 ++
      m.st.txs.pending.drop (m.st.txs.requestsBatch 5).length := by
    unfold requestsBatch
    dsimp only
    generalize min (1000 - _) 5 = k
    generalize m.st.txs.pending = p
    conv => lhs; rw [← List.take_append_drop k p]
    congr 1
    rw [List.length_take]
    rcases Nat.le_total k p.length with h | h
    · rw [Nat.min_eq_left h]
    · rw [Nat.min_eq_right h, List.drop_eq_nil_of_le h, List.drop_length]
  obtain ⟨m₁, txs, h1, _, _, _, h2⟩ := C42_round h hn hg hz hq hnonce rfl hp
  rw [hm] at h1; cases h1
  rw [h2, List.getElem?_append_left]
  · rw [List.getElem?_drop, ← hi]; congr 1; omega
  · have := (List.getElem?_eq_some_iff.1 hi).1
    rw [List.length_drop]; omega

end

/-! ### Examples -/

section
open Example

/-- After the two requests are accepted: the fees are too high for the second request only; the first gets its
transaction (nonce 5), the second stays. -/
example : ∃ s, Run (log.take 9) s ∧
    match Minter.createBatch ⟨s, log.take 9⟩ ⟨2000, 10⟩ with
    | .ok m' => m'.st.txs.pending = [.erc20 request2] ∧
        m'.log = log.take 9 ++ [.createdTransaction 20
          { tx1 with maxFeePerGas := 4010, amount := 3000000000 - 21000 * 4010 }]
    | .error _ => False := by
  obtain ⟨s, h, h'⟩ := start_run (k := 8) (p := fun s =>
    match Minter.createBatch ⟨s, log.take 9⟩ ⟨2000, 10⟩ with
    | .ok m' => decide (m'.st.txs.pending = [.erc20 request2] ∧
        m'.log = log.take 9 ++ [.createdTransaction 20
          { tx1 with maxFeePerGas := 4010, amount := 3000000000 - 21000 * 4010 }])
    | .error _ => false) (by decide +kernel)
  refine ⟨s, h, ?_⟩
  split at h' <;> simp_all

/-- At a fee estimate of zero, creating the transaction of a native withdrawal panics, since the amount sent would not
be strictly less than the amount withdrawn. -/
theorem C42_zero_fee_panics : ∃ s, Run (log.take 9) s ∧
    ∃ e, Minter.createBatch ⟨s, log.take 9⟩ ⟨0, 0⟩ = .error e := by
  obtain ⟨s, h, h'⟩ := start_run (k := 8) (p := fun s =>
    match Minter.createBatch ⟨s, log.take 9⟩ ⟨0, 0⟩ with
    | .ok _ => false
    | .error _ => true) (by decide +kernel)
  refine ⟨s, h, ?_⟩
  split at h'
  · cases h'
  · rename_i e he; exact ⟨e, he⟩

end

end EvmMinter
