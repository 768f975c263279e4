import Verif.Lemmas.Finalize
import Verif.Props.C55
/-!
# C60: mined transactions are finalized
-/

namespace EvmMinter
open Spec Transactions

section
variable [Keccak]

/-! ## The budgets of a world -/

omit [Keccak] in
theorem sum_zero {α : Type} (l : List α) : (l.map fun _ => 0).sum ≤ 0 := by
  induction l with
  | nil => exact Nat.le_refl _
  | cons x t ih => simpa using ih

theorem budget_of_world {w : World} (h : Reachable w) (hn : NonceNeverLowered w.mem.m.log)
    (hreg : w.mem.m.st.erc20Tokens.getEntry w.mem.m.st.nativeLedgerId = none)
    (hnat : w.burned w.mem.m.st.nativeLedgerId ≤ w.minted w.mem.m.st.nativeLedgerId)
    (htok : ∀ ledger c sym, w.mem.m.st.erc20Tokens.getEntry ledger = some (c, sym) → w.burned ledger ≤ w.minted ledger)
    (hlt : w.burned w.mem.m.st.nativeLedgerId < 2 ^ 256 - 1) : Budget w.mem.m.log w.mem.m.st := by
  obtain ⟨s, hs, hR, hfin, hproc, hbal, htb⟩ := replayed h hn
  have wf := (registry_of_tracks (tracks h)).wf
  have A := acct_of_replay hs
  have hget : ∀ i, w.mem.m.st.txs.finalized.getAlt i = s.txs.finalized.byAlt.get i := fun i => by rw [hfin]; rfl
  let idx : Event → Option LedgerBurnIndex
    | .acceptedNativeWithdrawalRequest r => some r.ledgerBurnIndex
    | .acceptedErc20WithdrawalRequest r => some r.nativeLedgerBurnIndex
    | _ => none
  have h3 := finalized_covers (w := w) hs (key := idx) (f := feeCharged s.txs.processed) (by
    intro r _ _
    cases r <;> exact .inr rfl)
  have h5 := burned_covers h w.mem.m.st.nativeLedgerId
  have h6 : (w.mem.m.log.map fun e => (idx e).elim 0 (fun k => (s.txs.finalized.byAlt.get k).elim 0 (feeCharged s.txs.processed k)) + owedFee w.mem.m.st e).sum ≤
      total (Event.burnedOn w.mem.m.st.nativeLedgerId w.mem.m.st.nativeLedgerId) w.mem.m.log := by
    refine sum_map_le fun e he => ?_
    cases e <;> try exact Nat.zero_le _
    case acceptedNativeWithdrawalRequest r =>
      have hb : Event.burnedOn w.mem.m.st.nativeLedgerId w.mem.m.st.nativeLedgerId (.acceptedNativeWithdrawalRequest r) = r.withdrawalAmount := by
        simp [Event.burnedOn, Event.burnAmounts]
      rw [hb]
      simp only [idx, Option.elim, owedFee, hget]
      cases hf : s.txs.finalized.byAlt.get r.ledgerBurnIndex with
      | none => simp
      | some f =>
        have hpr := processed_of_finalized h hs (r := .native r) he hf
        simp only [Request.burnIndex] at hpr
        simp only [feeCharged, hpr, reduceCtorEq, if_false]
        womega
    case acceptedErc20WithdrawalRequest r =>
      have hb : r.maxTransactionFee ≤ Event.burnedOn w.mem.m.st.nativeLedgerId w.mem.m.st.nativeLedgerId (.acceptedErc20WithdrawalRequest r) := by
        simp only [Event.burnedOn, Event.burnAmounts, List.filter_cons, beq_self_eq_true, if_true, List.map_cons, List.sum_cons]
        exact Nat.le_add_right _ _
      refine Nat.le_trans ?_ hb
      simp only [idx, Option.elim, owedFee, hget]
      cases hf : s.txs.finalized.byAlt.get r.nativeLedgerBurnIndex with
      | none => simp
      | some f =>
        have hpr := processed_of_finalized h hs (r := .erc20 r) he hf
        simp only [Request.burnIndex] at hpr
        simp only [feeCharged, hpr, reduceCtorEq, if_false]
        womega
  rw [sum_map_add] at h6
  have h7 : s.nativeBalance.totalEffectiveTxFees + s.nativeBalance.totalUnspentTxFees = _ := A.unspent
  have h8 : total (owedFee w.mem.m.st) w.mem.m.log ≤ total w.nativeOwed w.mem.m.log := by
    refine sum_map_le fun e _ => ?_
    cases e <;> try exact Nat.zero_le _
    case acceptedNativeWithdrawalRequest r _ =>
      simp only [owedFee, World.nativeOwed]
      split
      · rename_i hh; rw [hh]; exact Nat.le_refl _
      · exact Nat.zero_le _
    case acceptedErc20WithdrawalRequest r _ =>
      simp only [owedFee, World.nativeOwed]
      split
      · rename_i hh; rw [hh]; exact Nat.le_refl _
      · exact Nat.zero_le _
  have h9 := C54_native_backed h hn hreg
  rw [hbal] at h7
  refine ⟨?_, ?_, ?_, fun c => ?_⟩
  · womega
  · unfold total at *; womega
  · unfold total at *; womega
  · -- tokens
    by_cases hc : ∃ r : Erc20Request, .acceptedErc20WithdrawalRequest r ∈ w.mem.m.log ∧ r.erc20ContractAddress = c
    · obtain ⟨r, hr, rfl⟩ := hc
      obtain ⟨⟨_, sym, h1, _⟩, _⟩ := C49_truthful h hr
      have hh := (DMKM.getEntryAlt_eq wf).1 h1
      have h1 := (DMKM.getEntry_eq wf).2 hh
      have hne : r.erc20LedgerId ≠ w.mem.m.st.nativeLedgerId := by
        intro e; rw [e, hreg] at h1; cases h1
      have k1 := C53_token_backed h hn h1 hne
      have k2 := htok _ _ _ h1
      have k3 : total (owedToken w.mem.m.st r.erc20ContractAddress) w.mem.m.log ≤ total (w.tokenOwed r.erc20LedgerId) w.mem.m.log := by
        refine sum_map_le fun e he => ?_
        cases e <;> try exact Nat.zero_le _
        case acceptedErc20WithdrawalRequest q =>
          simp only [owedToken, World.tokenOwed]
          split
          · rename_i hq
            have hl : q.erc20LedgerId = r.erc20LedgerId := by
              obtain ⟨⟨_, sym', h2, _⟩, _⟩ := C49_truthful h he
              have h2 := (DMKM.getEntryAlt_eq wf).1 h2
              rw [hq.2] at h2
              exact (MKM.Has.unique_alt wf.map h2 hh).1
            have hp : w.paid q.nativeLedgerBurnIndex = false := by unfold World.paid; rw [hq.1]; rfl
            have hg : ¬ w.GaveBack r.erc20LedgerId q.erc20LedgerBurnIndex := by
              intro hg
              obtain ⟨x, rr, k1, k2, k3, k4, k5⟩ := reimbursement_owed h hn hs (gaveBack_iff.1 hg)
              have hx : x = .ofRequest (.erc20 q) :=
                knownReimb_unique h k3 (.inl ⟨.erc20 q, rfl, he⟩) (by rw [k1, ← hl]; rfl) (by rw [k2]; rfl)
              rcases k5 with ⟨n, i, f, q', j1, j2, j3, j4, j5⟩ | ⟨j1, j2⟩
              · have hi := ((known_of_replay hs).processed j3).1
                rw [hx] at j4
                have : i = q.nativeLedgerBurnIndex := by
                  cases q' <;> simp only [ReimbIndex.ofRequest, reduceCtorEq, ReimbIndex.erc20.injEq] at j4
                  rw [← hi]; exact j4.1.symm
                subst this
                have hf : s.txs.finalized.byAlt.get q.nativeLedgerBurnIndex = some f := j1.2
                rw [← hget, hq.1] at hf; cases hf
              · rw [hx] at j2; cases j2
            rw [if_pos ⟨hl, by rw [hp]; simp, hg⟩]
            exact Nat.le_refl _
          · exact Nat.zero_le _
      womega
    · have : total (owedToken w.mem.m.st c) w.mem.m.log = 0 := by
        refine Nat.le_zero.1 (Nat.le_trans (sum_map_le (g := fun _ => 0) fun e he => ?_) (sum_zero _))
        cases e <;> try exact Nat.le_refl _
        case acceptedErc20WithdrawalRequest q =>
          simp only [owedToken]
          rw [if_neg]
          · exact Nat.le_refl _
          · rintro ⟨_, hq⟩; exact hc ⟨q, he, hq⟩
      rw [this]; exact Nat.zero_le _

/-! ## Collecting receipts -/

omit [Keccak] in
/-- Two different versions of transactions for the same withdrawal are reported as mined. -/
def Doubled (f : FMap Hash LedgerBurnIndex) (ans : Hash → Minter.ReceiptResult) : Prop :=
  ∃ h₁ h₂ i r₁ r₂, h₁ ≠ h₂ ∧ f.get h₁ = some i ∧ f.get h₂ = some i ∧ ans h₁ = .ok (some r₁) ∧ ans h₂ = .ok (some r₂)

omit [Keccak] in
theorem collect_spec (ans : Hash → Minter.ReceiptResult) : ∀ (l : List (Hash × LedgerBurnIndex)) (acc : FMap LedgerBurnIndex Receipt),
    match Minter.collectReceipts acc (l.map fun x => (x, ans x.1)) with
    | none => (∃ x ∈ l, ans x.1 = .error ()) ∨ (∃ x ∈ l, ∃ r, ans x.1 = .ok (some r) ∧ acc.get x.2 ≠ none) ∨
        ∃ l₁ x l₂ y l₃ r r', l = l₁ ++ x :: l₂ ++ y :: l₃ ∧ x.2 = y.2 ∧ ans x.1 = .ok (some r) ∧ ans y.1 = .ok (some r')
    | some R => (∀ x ∈ l, ans x.1 ≠ .error ()) ∧ (∀ x ∈ l, ∀ r, ans x.1 = .ok (some r) → acc.get x.2 = none) ∧
        (l.Pairwise fun x y => x.2 = y.2 → ¬ ∃ r r', ans x.1 = .ok (some r) ∧ ans y.1 = .ok (some r')) ∧
        ∀ i r, R.get i = some r ↔ acc.get i = some r ∨ ∃ x ∈ l, x.2 = i ∧ ans x.1 = .ok (some r) := by
  intro l
  induction l with
  | nil => intro acc; simp [Minter.collectReceipts]
  | cons y t ih =>
    intro acc
    obtain ⟨hash, i⟩ := y
    simp only [List.map_cons]
    cases ha : ans hash with
    | error e => cases e; simp only [Minter.collectReceipts]; exact .inl ⟨(hash, i), by simp, ha⟩
    | ok o =>
      cases o with
      | none =>
        simp only [Minter.collectReceipts]
        have ih := ih acc
        cases hc : Minter.collectReceipts acc (t.map fun x => (x, ans x.1)) with
        | none =>
          rw [hc] at ih
          rcases ih with ⟨x, hx, h1⟩ | ⟨x, hx, h1⟩ | ⟨l₁, x, l₂, y, l₃, r, r', rfl, h1⟩
          · exact .inl ⟨x, by simp [hx], h1⟩
          · exact .inr (.inl ⟨x, by simp [hx], h1⟩)
          · exact .inr (.inr ⟨(hash, i) :: l₁, x, l₂, y, l₃, r, r', by simp, h1⟩)
        | some R =>
          rw [hc] at ih
          obtain ⟨h1, h2, h3, h4⟩ := ih
          refine ⟨?_, ?_, ?_, ?_⟩
          · intro x hx
            rcases List.mem_cons.1 hx with rfl | hx
            · simp [ha]
            · exact h1 x hx
          · intro x hx r hr
            rcases List.mem_cons.1 hx with rfl | hx
            · simp [ha] at hr
            · exact h2 x hx r hr
          · rw [List.pairwise_cons]
            refine ⟨fun y _ _ => ?_, h3⟩
            rintro ⟨r, r', h, _⟩
            simp [ha] at h
          · intro j r
            rw [h4]
            simp [ha]
      | some r₀ =>
        simp only [Minter.collectReceipts]
        cases hg : acc.get i with
        | some q =>
          simp only
          exact .inr (.inl ⟨(hash, i), by simp, r₀, ha, by simp [hg]⟩)
        | none =>
          simp only
          have ih := ih (acc.insert i r₀)
          cases hc : Minter.collectReceipts (acc.insert i r₀) (t.map fun x => (x, ans x.1)) with
          | none =>
            rw [hc] at ih
            rcases ih with ⟨x, hx, h1⟩ | ⟨x, hx, r, hr, h1⟩ | ⟨l₁, x, l₂, y, l₃, r, r', rfl, h1⟩
            · exact .inl ⟨x, by simp [hx], h1⟩
            · rw [FMap.get_insert] at h1
              split at h1
              · rename_i he
                obtain ⟨l₂, l₃, rfl⟩ := List.append_of_mem hx
                exact .inr (.inr ⟨[], (hash, i), l₂, x, l₃, r₀, r, by simp, by first | exact he | exact he.symm, ha, hr⟩)
              · exact .inr (.inl ⟨x, by simp [hx], r, hr, h1⟩)
            · exact .inr (.inr ⟨(hash, i) :: l₁, x, l₂, y, l₃, r, r', by simp, h1⟩)
          | some R =>
            rw [hc] at ih
            obtain ⟨h1, h2, h3, h4⟩ := ih
            have hne : ∀ x ∈ t, ∀ r, ans x.1 = .ok (some r) → x.2 ≠ i ∧ acc.get x.2 = none := by
              intro x hx r hr
              have := h2 x hx r hr
              rw [FMap.get_insert] at this
              split at this
              · cases this
              · rename_i he; exact ⟨by first | exact he | exact Ne.symm he, this⟩
            refine ⟨?_, ?_, ?_, ?_⟩
            · intro x hx
              rcases List.mem_cons.1 hx with rfl | hx
              · simp [ha]
              · exact h1 x hx
            · intro x hx r hr
              rcases List.mem_cons.1 hx with rfl | hx
              · exact hg
              · exact (hne x hx r hr).2
            · rw [List.pairwise_cons]
              refine ⟨fun y hy he => ?_, h3⟩
              rintro ⟨r, r', _, h⟩
              exact (hne y hy r' h).1 he.symm
            · intro j r
              rw [h4, FMap.get_insert]
              constructor
              · rintro (h | ⟨x, hx, h⟩)
                · split at h
                  · rename_i he; cases h
                    exact .inr ⟨(hash, i), by simp, by first | exact he | exact he.symm, ha⟩
                  · exact .inl h
                · exact .inr ⟨x, by simp [hx], h⟩
              · rintro (h | ⟨x, hx, h5, h6⟩)
                · left
                  rw [if_neg]
                  · exact h
                  · intro he; subst he; rw [hg] at h; cases h
                · rcases List.mem_cons.1 hx with rfl | hx
                  · left
                    rw [if_pos (by first | exact h5 | exact h5.symm)]
                    rw [ha] at h6; cases h6; rfl
                  · exact .inr ⟨x, hx, h5, h6⟩

omit [Keccak] in
theorem zip_ans (ans : Hash → Minter.ReceiptResult) (f : FMap Hash LedgerBurnIndex) :
    f.toList.zip (f.keys.map ans) = f.toList.map fun x => (x, ans x.1) := by
  unfold FMap.toList FMap.keys
  generalize f.entries = l
  induction l with
  | nil => rfl
  | cons x t ih => simp only [List.map_cons, List.zip_cons_cons]; rw [ih]

omit [Keccak] in
theorem keys_ext {K V V' : Type} [TOrd K] [DecidableEq K] {m : FMap K V} {m' : FMap K V'}
    (h : ∀ k, (∃ v, m.get k = some v) ↔ ∃ v, m'.get k = some v) : m.keys = m'.keys := by
  refine List.Perm.eq_of_pairwise (le := fun a b => TOrd.lt a b = true) ?_ m.keys_sorted m'.keys_sorted ?_
  · intro a b _ _ h1 h2
    have := TOrd.asymm h1
    rw [h2] at this; cases this
  · rw [List.perm_ext_iff_of_nodup m.keys_nodup m'.keys_nodup]
    intro k
    rw [FMap.mem_keys, FMap.mem_keys]
    exact h k

omit [Keccak] in
theorem foldl_index_get (l : List LedgerBurnIndex) : ∀ (acc : FSet LedgerBurnIndex) (i : LedgerBurnIndex),
    (∃ v, (l.foldl (fun s i => s.insert i ()) acc).get i = some v) ↔ i ∈ l ∨ ∃ v, acc.get i = some v := by
  induction l with
  | nil => intro acc i; simp
  | cons x t ih =>
    intro acc i
    rw [List.foldl_cons, ih, FMap.get_insert]
    by_cases hx : i = x
    · simp [hx]
    · simp [hx]

/-! ## What is done with the answers -/

omit [Keccak] in
theorem finalizations_nonce : ∀ (rs : List (LedgerBurnIndex × Receipt)) {log : List Event}, NonceNeverLowered log →
    NonceNeverLowered (log ++ rs.map fun x => .finalizedTransaction x.1 x.2) := by
  intro rs
  induction rs with
  | nil => intro log h; simpa using h
  | cons x t ih =>
    intro log h
    have := ih (nonceNeverLowered_snoc (e := .finalizedTransaction x.1 x.2) h (by intro a; simp))
    simpa using this

omit [Keccak] in
theorem toList_ordered {f : FMap Hash LedgerBurnIndex} {l₁ l₂ l₃ : List (Hash × LedgerBurnIndex)} {x y : Hash × LedgerBurnIndex}
    (h : f.toList = l₁ ++ x :: l₂ ++ y :: l₃) : x.1 ≠ y.1 := by
  have := f.keys_nodup
  unfold FMap.keys at this
  rw [show f.entries = l₁ ++ x :: l₂ ++ y :: l₃ from h] at this
  intro he
  simp only [List.map_append, List.map_cons, List.append_assoc, List.cons_append, List.nodup_append, List.nodup_cons, List.mem_append,
    List.mem_cons, not_or] at this
  exact this.2.1.1.2.1 he

/-- **C60.** If a provider fails to answer, or two versions of the transaction of a withdrawal are both reported as mined, nothing is
recorded; the lock is released and the next round tries again. -/
theorem C60_nothing (c : Mem) (f : FMap Hash LedgerBurnIndex) (ans : Hash → Minter.ReceiptResult) (now : Nat)
    (h : (∃ hash i, f.get hash = some i ∧ ans hash = .error ()) ∨ Doubled f ans) :
    (ExtTask.retrieveReceipts f).resume c now (.receipts (f.keys.map ans)) = some (.ok (c.release .retrieveEth, .finish none)) := by
  have hs := collect_spec ans f.toList ∅
  cases hc : Minter.collectReceipts ∅ (f.toList.map fun x => (x, ans x.1)) with
  | none =>
    simp only [ExtTask.resume, Mem.onReceipts, Minter.recordReceipts, zip_ans, hc, Res.ok_bind]
    rfl
  | some R =>
    rw [hc] at hs
    obtain ⟨h1, _, h3, _⟩ := hs
    exfalso
    rcases h with ⟨hash, i, k1, k2⟩ | ⟨a, b, i, r, r', k1, k2, k3, k4, k5⟩
    · exact h1 _ (FMap.mem_toList.2 k1) k2
    · have m1 := FMap.mem_toList.2 k2
      have m2 := FMap.mem_toList.2 k3
      have hsub : [(a, i), (b, i)].Sublist f.toList ∨ [(b, i), (a, i)].Sublist f.toList := by
        obtain ⟨l₁, l₂, hl⟩ := List.append_of_mem m1
        rw [hl] at m2 ⊢
        rcases List.mem_append.1 m2 with m2 | m2
        · right
          exact List.Sublist.append (List.singleton_sublist.2 m2) (List.Sublist.cons_cons _ (List.nil_sublist _))
        · rcases List.mem_cons.1 m2 with e | m2
          · cases e; exact absurd rfl k1
          · left
            exact (List.Sublist.cons_cons _ (List.singleton_sublist.2 m2)).trans (List.sublist_append_right _ _)
      rcases hsub with hsub | hsub
      · exact List.pairwise_iff_forall_sublist.1 h3 hsub rfl ⟨r, r', k4, k5⟩
      · exact List.pairwise_iff_forall_sublist.1 h3 hsub rfl ⟨r', r, k5, k4⟩

omit [Keccak] in
theorem collect_some {ans : Hash → Minter.ReceiptResult} {f : FMap Hash LedgerBurnIndex}
    (he : ∀ hash i, f.get hash = some i → ans hash ≠ .error ()) (hd : ¬ Doubled f ans) :
    ∃ R, Minter.collectReceipts ∅ (f.toList.map fun x => (x, ans x.1)) = some R ∧
      ∀ i r, R.get i = some r ↔ ∃ hash, f.get hash = some i ∧ ans hash = .ok (some r) := by
  have hs := collect_spec ans f.toList ∅
  cases hc : Minter.collectReceipts ∅ (f.toList.map fun x => (x, ans x.1)) with
  | none =>
    rw [hc] at hs
    exfalso
    rcases hs with ⟨x, hx, h1⟩ | ⟨x, hx, r, _, h1⟩ | ⟨l₁, x, l₂, y, l₃, r, r', hl, h1, h2, h3⟩
    · exact he x.1 x.2 (FMap.mem_toList.1 hx) h1
    · exact h1 rfl
    · have hx : (x.1, x.2) ∈ f.toList := by rw [hl]; simp
      have hy : (y.1, y.2) ∈ f.toList := by rw [hl]; simp
      exact hd ⟨x.1, y.1, x.2, r, r', toList_ordered hl, FMap.mem_toList.1 hx, by rw [h1]; exact FMap.mem_toList.1 hy, h2, h3⟩
  | some R =>
    rw [hc] at hs
    refine ⟨R, rfl, fun i r => ?_⟩
    rw [hs.2.2.2]
    constructor
    · rintro (h | ⟨x, hx, rfl, h⟩)
      · cases h
      · exact ⟨x.1, FMap.mem_toList.1 hx, h⟩
    · rintro ⟨hash, h1, h2⟩
      exact .inr ⟨(hash, i), FMap.mem_toList.2 h1, rfl, h2⟩

/-- **C60.** If the providers answer but none of the versions of the transaction of some withdrawal has a receipt, the callback traps:
none of the receipts is recorded. -/
theorem C60_missing (c : Mem) (f : FMap Hash LedgerBurnIndex) (ans : Hash → Minter.ReceiptResult) (now : Nat)
    (he : ∀ hash i, f.get hash = some i → ans hash ≠ .error ()) (hd : ¬ Doubled f ans)
    {hash : Hash} {i : LedgerBurnIndex} (hi : f.get hash = some i) (hm : ∀ hash', f.get hash' = some i → ans hash' = .ok none) :
    ∃ e, (ExtTask.retrieveReceipts f).resume c now (.receipts (f.keys.map ans)) = some (.error e) := by
  obtain ⟨R, hR, hget⟩ := collect_some he hd
  simp only [ExtTask.resume, Mem.onReceipts, Minter.recordReceipts, zip_ans, hR]
  have hne : ¬ ((f.values.foldl (fun (s : FSet LedgerBurnIndex) i => s.insert i ()) ∅).keys == R.keys) = true := by
    rw [beq_iff_eq]
    intro hk
    have h1 : i ∈ (f.values.foldl (fun (s : FSet LedgerBurnIndex) i => s.insert i ()) ∅).keys :=
      FMap.mem_keys.2 ((foldl_index_get _ _ _).2 (.inl (FMap.mem_values.2 ⟨_, hi⟩)))
    rw [hk, FMap.mem_keys] at h1
    obtain ⟨r, hr⟩ := h1
    obtain ⟨hash', k1, k2⟩ := (hget i r).1 hr
    rw [hm _ k1] at k2; cases k2
  simp only [ensure, hne]
  exact ⟨_, rfl⟩

/-- What the chain answers for transactions that have been mined: exactly one version per withdrawal has a receipt, which names its hash
and respects the limits of the transaction. -/
structure Spec.Mined (s : State) (f : FMap Hash LedgerBurnIndex) (ans : Hash → Minter.ReceiptResult) : Prop where
  answered : ∀ hash i, f.get hash = some i → ans hash ≠ .error ()
  mined : ∀ hash i, f.get hash = some i → ∃ hash' r, f.get hash' = some i ∧ ans hash' = .ok (some r)
  once : ¬ Doubled f ans
  hash : ∀ hash i r, f.get hash = some i → ans hash = .ok (some r) → r.transactionHash = hash
  limits : ∀ hash i r, f.get hash = some i → ans hash = .ok (some r) → ∀ l, s.txs.sent.getAlt i = some l →
    ∀ x ∈ l, x.transaction.hash = hash → r.effectiveGasPrice ≤ x.transaction.tx.maxFeePerGas ∧ r.gasUsed ≤ x.transaction.tx.gasLimit

/-- A task that waits for receipts asked for all versions of the transactions with a nonce below some count. -/
theorem C60_asked {w : World} (h : Reachable w) (hn : NonceNeverLowered w.mem.m.log) {id : Nat} {f : FMap Hash LedgerBurnIndex}
    {o : Option LedgerAnswer} (hp : ⟨id, .ext (.retrieveReceipts f), o⟩ ∈ w.tasks) :
    ∃ count, ∀ hash i, f.get hash = some i ↔ ∃ n l x, w.mem.m.st.txs.sent.getEntry n = some (i, l) ∧ n < count ∧ x ∈ l ∧
      x.transaction.hash = hash := by
  obtain ⟨count, hf⟩ : ∃ count, w.mem.m.st.txs.sentToFinalize count = .ok f := receiptClaim h _ hp
  refine ⟨count, fun hash i => ?_⟩
  obtain ⟨inv, _⟩ := run_txInv (run_of_reachable h hn) hn
  obtain ⟨r, h1, h2, h3⟩ := MKM.iter_total inv.sw
  unfold sentToFinalize at hf
  rw [h1] at hf
  rw [toFinalizeLoop_ok _ _ _ hf hash i]
  simp only [FMap.get_empty, reduceCtorEq, false_or, List.mem_flatMap, List.mem_filter, List.mem_map, Prod.mk.injEq, decide_eq_true_eq]
  constructor
  · rintro ⟨x, ⟨⟨n, j, l⟩, ⟨hr, hlt⟩, y, hy, rfl, rfl⟩, hh⟩
    exact ⟨n, l, y, MKM.getEntry_eq.2 ((h2 _ _ _).1 hr), hlt, hy, hh⟩
  · rintro ⟨n, l, y, he, hlt, hy, hh⟩
    exact ⟨_, ⟨(n, i, l), ⟨(h2 _ _ _).2 (MKM.getEntry_eq.1 he), hlt⟩, y, hy, rfl, rfl⟩, hh⟩

/-- **C60.** In every reachable world: when the chain answers truthfully for mined transactions, their receipts are recorded. The callback
does not trap; every withdrawal asked for is finalized with the version that was mined and leaves the queue of sent transactions; the
other withdrawals are not affected. -/
theorem C60_finalized {w : World} (h : Reachable w) (hn : NonceNeverLowered w.mem.m.log)
    (hreg : w.mem.m.st.erc20Tokens.getEntry w.mem.m.st.nativeLedgerId = none)
    (hnat : w.burned w.mem.m.st.nativeLedgerId ≤ w.minted w.mem.m.st.nativeLedgerId)
    (htok : ∀ ledger c sym, w.mem.m.st.erc20Tokens.getEntry ledger = some (c, sym) → w.burned ledger ≤ w.minted ledger)
    (hlt : w.burned w.mem.m.st.nativeLedgerId < 2 ^ 256 - 1)
    {id : Nat} {f : FMap Hash LedgerBurnIndex} {o : Option LedgerAnswer} (hp : ⟨id, .ext (.retrieveReceipts f), o⟩ ∈ w.tasks)
    {ans : Hash → Minter.ReceiptResult} (ha : Mined w.mem.m.st f ans)
    (hpos : ∀ hash i q, f.get hash = some i → w.mem.m.st.txs.processed.get i = some (.erc20 q) → 0 < q.withdrawalAmount) (now : Nat) :
    ∃ c, (ExtTask.retrieveReceipts f).resume w.mem now (.receipts (f.keys.map ans)) = some (.ok (c, .finish none)) ∧
      c = ({ w.mem with m := c.m }).release .retrieveEth ∧
      (∀ hash i r, f.get hash = some i → ans hash = .ok (some r) →
        ∃ fin, c.m.st.txs.finalized.getAlt i = some fin ∧ fin.receipt = r ∧ fin.signed.hash = hash) ∧
      (∀ hash i, f.get hash = some i → c.m.st.txs.sent.getAlt i = none) ∧
      (∀ i, (∀ hash, f.get hash ≠ some i) → c.m.st.txs.sent.getAlt i = w.mem.m.st.txs.sent.getAlt i ∧
        c.m.st.txs.finalized.getAlt i = w.mem.m.st.txs.finalized.getAlt i) := by
  obtain ⟨count, hf⟩ := C60_asked h hn hp
  have hrun := run_of_reachable h hn
  obtain ⟨inv, _⟩ := run_txInv hrun hn
  obtain ⟨R, hR, hget⟩ := collect_some ha.answered ha.once
  have hkeys : (f.values.foldl (fun (s : FSet LedgerBurnIndex) i => s.insert i ()) ∅).keys = R.keys := by
    refine keys_ext fun i => ?_
    rw [foldl_index_get, FMap.mem_values]
    simp only [FMap.get_empty, reduceCtorEq, exists_false, or_false]
    constructor
    · rintro ⟨hash, hh⟩
      obtain ⟨hash', r, k1, k2⟩ := ha.mined _ _ hh
      exact ⟨r, (hget i r).2 ⟨hash', k1, k2⟩⟩
    · rintro ⟨r, hr⟩
      obtain ⟨hash, k1, _⟩ := (hget i r).1 hr
      exact ⟨hash, k1⟩
  obtain ⟨m', j1, j2, j3, j4, j5⟩ := finalize_all (rs := R.toList) (m := w.mem.m) hrun hn (budget_of_world h hn hreg hnat htok hlt) R.keys_nodup (by
    intro i r hm
    obtain ⟨hash, k1, k2⟩ := (hget i r).1 (FMap.mem_toList.1 hm)
    obtain ⟨n, l, x, e1, _, e3, e4⟩ := (hf hash i).1 k1
    have e1 := MKM.getEntry_eq.1 e1
    have hh := ha.hash _ _ _ k1 k2
    refine ⟨n, l, e1, ⟨x, e3, by rw [hh]; exact e4⟩, fun y hy hyh => ?_, fun q hq => hpos _ _ _ k1 hq⟩
    exact ha.limits _ _ _ k1 k2 l ((MKM.getAlt_eq inv.sw).2 ⟨n, e1⟩) y hy (by rw [hyh, hh]))
  have hin : ∀ i, i ∈ R.toList.map (·.1) ↔ ∃ hash, f.get hash = some i := by
    intro i
    have : i ∈ R.toList.map (·.1) ↔ ∃ r, R.get i = some r := FMap.mem_keys
    rw [this]
    constructor
    · rintro ⟨r, hr⟩
      obtain ⟨hash, k1, _⟩ := (hget i r).1 hr
      exact ⟨hash, k1⟩
    · rintro ⟨hash, hh⟩
      obtain ⟨hash', r, k1, k2⟩ := ha.mined _ _ hh
      exact ⟨r, (hget i r).2 ⟨hash', k1, k2⟩⟩
  have hrun' : Run m'.log m'.st := by
    have : w.mem.m.recordReceipts f (f.keys.map ans) = .ok m' := by
      simp only [Minter.recordReceipts, zip_ans, hR, hkeys, beq_self_eq_true, ensure, if_true, Res.ok_bind]
      exact j1
    exact run_recordReceipts hrun this
  have hn' : NonceNeverLowered m'.log := by
    rw [j2]
    exact finalizations_nonce R.toList hn
  obtain ⟨inv', _⟩ := run_txInv hrun' hn'
  refine ⟨({ w.mem with m := m' }).release .retrieveEth, ?_, rfl, ?_, ?_, ?_⟩
  · simp only [ExtTask.resume, Mem.onReceipts, Minter.recordReceipts, zip_ans, hR, hkeys, beq_self_eq_true, ensure, if_true, Res.ok_bind, j1]
    rfl
  · intro hash i r k1 k2
    obtain ⟨fin, e1, e2, e3⟩ := j3 i r (FMap.mem_toList.2 ((hget i r).2 ⟨hash, k1, k2⟩))
    exact ⟨fin, e1, e2, by rw [e3]; exact ha.hash _ _ _ k1 k2⟩
  · intro hash i k1
    show m'.st.txs.sent.getAlt i = none
    cases hs : m'.st.txs.sent.getAlt i with
    | none => rfl
    | some l =>
      obtain ⟨n, hs⟩ := (MKM.getAlt_eq inv'.sw).1 hs
      exact absurd ((hin i).2 ⟨hash, k1⟩) ((j5 n i l).1 hs).1
  · intro i hi
    have hni : i ∉ R.toList.map (·.1) := fun hh => by
      obtain ⟨hash, hh⟩ := (hin i).1 hh
      exact hi hash hh
    refine ⟨?_, j4 i hni⟩
    show m'.st.txs.sent.getAlt i = w.mem.m.st.txs.sent.getAlt i
    refine Option.ext fun l => ?_
    rw [MKM.getAlt_eq inv'.sw, MKM.getAlt_eq inv.sw]
    simp only [j5, hni, not_false_eq_true, true_and]

end

namespace Example
attribute [local instance] keccak

/-- `Mined`, evaluated. -/
def minedCheck (s : State) (f : FMap Hash LedgerBurnIndex) (ans : Hash → Minter.ReceiptResult) : Bool :=
  f.toList.all fun x =>
    (match ans x.1 with
      | .error _ => false
      | .ok none => true
      | .ok (some r) => r.transactionHash == x.1 && (f.toList.all fun y => y.2 != x.2 || y.1 == x.1 || ans y.1 matches .ok none) &&
        match s.txs.sent.getAlt x.2 with
        | none => true
        | some l => l.all fun t => t.transaction.hash != x.1 ||
          (decide (r.effectiveGasPrice ≤ t.transaction.tx.maxFeePerGas) && decide (r.gasUsed ≤ t.transaction.tx.gasLimit))) &&
    f.toList.any fun y => y.2 == x.2 && ans y.1 matches .ok (some _)

theorem minedCheck_sound {s : State} {f : FMap Hash LedgerBurnIndex} {ans : Hash → Minter.ReceiptResult} (h : minedCheck s f ans = true) :
    Mined s f ans := by
  unfold minedCheck at h
  rw [List.all_eq_true] at h
  have key := fun hash i (hi : f.get hash = some i) => h (hash, i) (FMap.mem_toList.2 hi)
  simp only [Bool.and_eq_true] at key
  have hr : ∀ hash i r, f.get hash = some i → ans hash = .ok (some r) → r.transactionHash = hash ∧
      (∀ y ∈ f.toList, y.2 = i → y.1 = hash ∨ ans y.1 = .ok none) ∧ ∀ l, s.txs.sent.getAlt i = some l →
    ∀ x ∈ l, x.transaction.hash = hash → r.effectiveGasPrice ≤ x.transaction.tx.maxFeePerGas ∧ r.gasUsed ≤ x.transaction.tx.gasLimit := by
    intro hash i r hi ha
    have := (key hash i hi).1
    rw [ha] at this
    simp only [Bool.and_eq_true, beq_iff_eq, List.all_eq_true, Bool.or_eq_true, bne_iff_ne, ne_eq] at this
    obtain ⟨⟨h1, h2⟩, h3⟩ := this
    refine ⟨h1, fun y hy he => ?_, fun l hl x hx hh => ?_⟩
    · rcases h2 y hy with (h | h) | h
      · exact absurd he h
      · exact .inl h
      · right
        split at h
        · assumption
        · cases h
    · rw [hl] at h3
      rw [List.all_eq_true] at h3
      have := h3 x hx
      simp only [Bool.or_eq_true, bne_iff_ne, ne_eq, hh, not_true_eq_false, false_or, Bool.and_eq_true, decide_eq_true_eq] at this
      exact this
  refine ⟨?_, ?_, ?_, fun hash i r hi ha => (hr hash i r hi ha).1, fun hash i r hi ha => (hr hash i r hi ha).2.2⟩
  · intro hash i hi he
    have := (key hash i hi).1
    rw [he] at this; cases this
  · intro hash i hi
    have := (key hash i hi).2
    rw [List.any_eq_true] at this
    obtain ⟨⟨hash', j⟩, hm, hy⟩ := this
    simp only [Bool.and_eq_true, beq_iff_eq] at hy
    obtain ⟨rfl, hy⟩ := hy
    split at hy
    · rename_i r hr
      exact ⟨hash', r, FMap.mem_toList.1 hm, hr⟩
    · cases hy
  · rintro ⟨a, b, i, r, r', k1, k2, k3, k4, k5⟩
    rcases (hr a i r k2 k4).2.1 (b, i) (FMap.mem_toList.2 k3) rfl with h | h
    · exact k1 h.symm
    · rw [k5] at h; cases h

/-- Both transactions of the withdrawals of C55 are mined: the first has failed. -/
def bothMined : Hash → Minter.ReceiptResult := fun hash =>
  if hash = nativeTx.hash then .ok (some nativeReceipt) else if hash = usdcTx.hash then .ok (some usdcReceipt) else .ok none

def askingReceipts : List Action := sending ++ [.answer 0 (.signatures [some sig, some sig]) 42, .answer 0 .sent 43, .answer 0 (.count (some 7)) 44]

/-- The hypotheses of `C60_finalized` hold with two mined transactions. -/
theorem C60_example : ∃ w, Reachable w ∧ (match w.tasks with
    | [⟨_, .ext (.retrieveReceipts f), _⟩] => decide (f.toList.length = 2 ∧ minedCheck w.mem.m.st f bothMined = true ∧
        w.mem.m.st.erc20Tokens.getEntry w.mem.m.st.nativeLedgerId = none ∧ w.mem.m.st.nativeLedgerId = ledger ∧
        w.burned ledger = 5002729900 ∧ w.minted ledger = 6000000000 ∧ w.burned usdcLedger = 700 ∧ w.minted usdcLedger = 1000 ∧
        (w.mem.m.st.txs.processed.toList.all fun x => match x.2 with | .erc20 q => decide (0 < q.withdrawalAmount) | _ => true) = true)
    | _ => false) = true :=
  after_reachable (arg := initArg) (l := askingReceipts) (by decide +kernel)

/-- The transaction of a withdrawal of 0 tokens. -/
def zeroTx : SignedTx := ⟨⟨11155111, 5, 2, 42, 65000, usdc, 0, [0xa9, 0x05, 0x9c, 0xbb] ++ toBE 32 0xbeef ++ toBE 32 0, []⟩, sig⟩

def paidTx : SignedTx := { nativeTx with tx := { nativeTx.tx with nonce := 6 } }

/-- The providers answer for both transactions, in the order of their hashes. -/
def zeroReceipts : List Minter.ReceiptResult :=
  let a : Minter.ReceiptResult := .ok (some ⟨1, 200, 40, 60000, .success, zeroTx.hash⟩)
  let b : Minter.ReceiptResult := .ok (some ⟨2, 200, 40, 21000, .success, paidTx.hash⟩)
  if zeroTx.hash < paidTx.hash then [a, b] else [b, a]

/-- Why the withdrawn amounts must be positive: the minter lets in withdrawals of 0 tokens, and relies on the ledgers to refuse them. If
a ledger does not, and the token was never deposited, the receipt cannot be recorded: the callback traps, in the next round again, and
with it no other receipt is recorded. -/
theorem C60_zero_counterexample : ∃ w, Reachable w ∧ decide (
    (w.finished.filter fun x => x.2 matches .trapped).length = 2 ∧
    (w.mem.m.st.txs.sent.byAlt.toList.map fun x => x.2.map (·.transaction)) = [[zeroTx], [paidTx]] ∧
    w.mem.m.st.txs.finalized.byAlt.toList.length = 0) = true :=
  after_reachable (arg := initArg) (l := [.start (.addToken manager usdcArg) 4] ++ scrapeLogs [nativeLog 6000000000 3] ++
    [.start .mint 8, .execute 0, .deliver 0 9, .execute 0, .deliver 0 10,
    .start (.withdrawErc20 alice 0 usdcLedger to (some gasEstimate)) 15, .execute 0, .deliver 0 17, .execute 0, .deliver 0 18,
    .execute 0, .deliver 0 19, .start (.withdrawNative alice 5000000000 to) 25, .execute 0, .deliver 0 27, .execute 0, .deliver 0 29,
    .start (.retrieve (some gasEstimate)) 40, .answer 0 (.count (some 5)) 41,
    .answer 0 (.signatures [some sig, some sig]) 42, .answer 0 .sent 43, .answer 0 (.count (some 7)) 44,
    .answer 0 (.receipts zeroReceipts) 45,
    .start (.retrieve (some gasEstimate)) 50, .answer 0 (.count (some 7)) 51, .answer 0 (.count (some 7)) 52,
    .answer 0 (.receipts zeroReceipts) 53]) (by decide +kernel)

end Example
end EvmMinter
