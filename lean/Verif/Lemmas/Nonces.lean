import Verif.Lemmas.Serve
/-!
# Nonces do not stay in use for ever
-/

namespace EvmMinter
open Spec Transactions

section
variable [Keccak]

/-! ## Nonces and the log -/

theorem inUse_log {log : List Event} {s : State} (h : Run log s) (hn : NonceNeverLowered log) {n : TransactionNonce} :
    InUse s n ↔ ∃ i tx, Event.createdTransaction i tx ∈ log ∧ tx.nonce = n ∧ ∀ r, Event.finalizedTransaction i r ∉ log := by
  obtain ⟨inv, tl, _⟩ := run_txInv h hn
  constructor
  · intro hu
    have : ∃ i k, Core s.txs n i k ∧ ∀ r, Event.finalizedTransaction i r ∉ log := by
      rcases hu with ⟨i, c, hc⟩ | ⟨i, l, hl⟩
      · have hc := MKM.getEntry_eq.1 hc
        refine ⟨i, _, .inl ⟨c, hc, rfl⟩, fun r hr => ?_⟩
        obtain ⟨n', f, hf, _⟩ := tl.finIn i r hr
        exact (inv.cf _ _ _ _ _ _ hc hf).2 rfl
      · have hl := MKM.getEntry_eq.1 hl
        obtain ⟨x, hx⟩ := List.exists_mem_of_ne_nil _ (inv.sN _ _ _ hl).2.1
        refine ⟨i, _, .inr (.inl ⟨l, x, hl, hx, rfl⟩), fun r hr => ?_⟩
        obtain ⟨n', f, hf, _⟩ := tl.finIn i r hr
        exact (inv.sf _ _ _ _ _ _ hl hf).2 rfl
    obtain ⟨i, k, hk, hf⟩ := this
    obtain ⟨tx, h1, h2, _⟩ := tl.core3 _ _ _ hk
    exact ⟨i, tx, h1, h2, hf⟩
  · rintro ⟨i, tx, h1, rfl, h2⟩
    rcases tl.core1 i tx h1 with ⟨c, hc, _⟩ | ⟨l, x, hl, _, _⟩ | ⟨f, hf, _⟩
    · exact .inl ⟨i, c, MKM.getEntry_eq.2 hc⟩
    · exact .inr ⟨i, l, MKM.getEntry_eq.2 hl⟩
    · exact absurd (tl.finLog _ _ _ hf).1 (h2 _)

theorem inUse_lt {log : List Event} {s : State} (h : Run log s) (hn : NonceNeverLowered log) {n : TransactionNonce} (hu : InUse s n) :
    n < s.txs.nextNonce := by
  obtain ⟨inv, _⟩ := run_txInv h hn
  rcases hu with ⟨i, c, hc⟩ | ⟨i, l, hl⟩
  · exact (inv.cN _ _ _ (MKM.getEntry_eq.1 hc)).1
  · exact (inv.sN _ _ _ (MKM.getEntry_eq.1 hl)).1

theorem inUse_cases {log : List Event} {s : State} (h : Run log s) (hn : NonceNeverLowered log) {n : TransactionNonce} (hu : InUse s n) :
    (∃ i tx, Waiting s i tx ∧ tx.nonce = n) ∨ ∃ i x, Latest s i x ∧ x.tx.nonce = n := by
  obtain ⟨inv, _⟩ := run_txInv h hn
  rcases hu with ⟨i, c, hc⟩ | ⟨i, l, hl⟩
  · have := (inv.cN _ _ _ (MKM.getEntry_eq.1 hc)).2
    exact .inl ⟨i, c.transaction, ⟨c, by rw [this]; exact hc, rfl⟩, this⟩
  · have hs := inv.sN _ _ _ (MKM.getEntry_eq.1 hl)
    cases hlast : l.getLast? with
    | none => exact absurd (List.getLast?_eq_none_iff.1 hlast) hs.2.1
    | some x =>
      have hx := hs.2.2 x (List.mem_of_getLast? hlast)
      exact .inr ⟨i, x.transaction, ⟨l, x.resubmission, by rw [hx]; exact hl, hlast⟩, hx⟩

theorem Spec.Waiting.inUse {s : State} {i : LedgerBurnIndex} {tx : Tx} (h : Waiting s i tx) : InUse s tx.nonce := by
  obtain ⟨c, hc, _⟩ := h
  exact .inl ⟨i, c, hc⟩

theorem Spec.Latest.inUse {s : State} {i : LedgerBurnIndex} {x : SignedTx} (h : Latest s i x) : InUse s x.tx.nonce := by
  obtain ⟨l, _, hl, _⟩ := h
  exact .inr ⟨i, l, hl⟩

omit [Keccak] in
theorem expectedNonce_le (es : List Event) (he : ∀ e ∈ es, e.origin ≠ .lifecycle) : ∀ n : Nat, n ≤ es.foldl nonceAfter n := by
  induction es with
  | nil => intro n; exact Nat.le_refl n
  | cons e t ih =>
    intro n
    have h1 : n ≤ nonceAfter n e := by
      have := he e (by simp)
      cases e <;> simp [Event.origin] at this <;> simp [nonceAfter]
    exact Nat.le_trans h1 (ih (fun e' h' => he e' (by simp [h'])) _)

variable {ρ : Nat → World} {α : Nat → ExtAnswer} {N : Nat}

/-- A nonce that is not in use any more is never in use again. -/
theorem Spec.Serving.gone (S : Serving ρ α N) (E : Endless ρ) {i j : Nat} (hi : N ≤ i) (hij : i ≤ j) {n : TransactionNonce}
    (hlt : n < (ρ i).mem.m.st.txs.nextNonce) (hu : ¬ InUse (ρ i).mem.m.st n) : ¬ InUse (ρ j).mem.m.st n := by
  intro hj
  obtain ⟨es, h1, h2⟩ := S.plain E hi hij
  have rj := S.run E (Nat.le_trans hi hij)
  have nj := S.never E (Nat.le_trans hi hij)
  obtain ⟨k, tx, g1, g2, g3⟩ := (inUse_log rj nj).1 hj
  rw [h1] at g1 g3
  rcases List.mem_append.1 g1 with g1 | g1
  · exact hu ((inUse_log (S.run E hi) (S.never E hi)).2 ⟨k, tx, g1, g2, fun r hr => g3 r (by simp [hr])⟩)
  · obtain ⟨es1, es2, rfl⟩ := List.append_of_mem g1
    obtain ⟨_, hrep, _⟩ := run_replay rj
    have := (C13_nonces_unique hrep nj).2.2.1 ((ρ i).mem.m.log ++ es1) k tx es2 (by rw [h1, List.append_assoc])
    rw [g2, expectedNonce, List.foldl_append] at this
    have hle := expectedNonce_le es1 (fun e he => h2 e (by simp [he])) ((ρ i).mem.m.log.foldl nonceAfter 0)
    have hnx := (run_txInv (S.run E hi) (S.never E hi)).2.2
    rw [hnx, expectedNonce] at hlt
    rw [← this] at hle
    exact Nat.lt_irrefl _ (Nat.lt_of_lt_of_le hlt hle)

/-! ## A round -/

theorem exists_inUse {log : List Event} {s : State} (h : Run log s) (hn : NonceNeverLowered log) :
    ∃ l : List TransactionNonce, l.Nodup ∧ ∀ n, n ∈ l ↔ InUse s n := by
  classical
  refine ⟨(List.range s.txs.nextNonce).filter fun n => decide (InUse s n), List.nodup_range.filter _, fun n => ?_⟩
  rw [List.mem_filter, List.mem_range, decide_eq_true_eq]
  exact ⟨And.right, fun hu => ⟨inUse_lt h hn hu, hu⟩⟩

/-- The transaction count arrives (C71). -/
theorem Spec.Serving.create (S : Serving ρ α N) (E : Endless ρ) {j : Nat} (hj : N ≤ j) {g : GasFeeEstimate}
    (hat : At (ρ j) (.retrieveCount g)) {k : Option TransactionCount} (hh : Hears ρ α j (.retrieveCount g) (.count k))
    {inUse : List TransactionNonce} (hd : inUse.Nodup)
    (hu : ∀ n, n ∈ inUse ↔ InUse (ρ j).mem.m.st n) {batch rest : List Request} (hb : (ρ j).mem.m.st.txs.pending = batch ++ rest)
    (hl : batch.length = min 5 (1000 - inUse.length) ∨ rest = [] ∧ batch.length ≤ min 5 (1000 - inUse.length)) :
    (ρ (j + 1)).mem.m.st.txs.pending = rest ++ batch.filter (fun r => !decide (Affordable g r)) ∧
      ∃ c n, c.m = (ρ (j + 1)).mem.m ∧ ThenSigns c k (ρ (j + 1)).mem n ∧ Goes (ρ (j + 1)) n := by
  obtain ⟨id, o, hp⟩ := hat
  have hq : ∀ q, Request.native q ∈ (ρ j).mem.m.st.txs.pending → q.withdrawalAmount < 2 ^ 256 - 1 := fun q hq =>
    S.amounts j hj q (((run_txInv (S.run E hj) (S.never E hj)).2.1.acc (.native q)).2 (.inl hq))
  obtain ⟨m, c, n, h1, h2, h3, _, _, _, _, _, h4⟩ := C71_create (E.reachable j) (S.never E hj) hp (S.positive j hj id g o hp) hq (S.nonces j hj)
    hd hu hb hl k 0
  have hshape : ∀ t, n ≠ .await (.ledger t) := by
    rintro t rfl
    rcases resume_forward rfl h1 with h | ⟨_, h, _⟩ <;> cases h
  obtain ⟨k1, k2⟩ := hh.1.goes (E.reachable j) (E.reachable (j + 1)) rfl (fun _ => h1) hshape
  rw [k1, h2]
  exact ⟨h3, _, n, rfl, h4, k2⟩

theorem exists_batch {log : List Event} {s : State} (h : Run log s) (hn : NonceNeverLowered log) :
    ∃ inUse : List TransactionNonce, inUse.Nodup ∧ (∀ n, n ∈ inUse ↔ InUse s n) ∧ ∃ batch rest, s.txs.pending = batch ++ rest ∧
      (batch.length = min 5 (1000 - inUse.length) ∨ rest = [] ∧ batch.length ≤ min 5 (1000 - inUse.length)) := by
  obtain ⟨l, h1, h2⟩ := exists_inUse h hn
  refine ⟨l, h1, h2, s.txs.pending.take (min 5 (1000 - l.length)), s.txs.pending.drop (min 5 (1000 - l.length)), by simp, ?_⟩
  rw [List.length_take, List.drop_eq_nil_iff]
  omega

omit [Keccak] in
/-- The finalized transaction count is asked for while a transaction is sent. -/
theorem finalizes {w : World} {c : Mem} {n : Next} (hc : c.m = w.mem.m) (h : ThenFinalizes c w.mem n) (hg : Goes w n) {i : LedgerBurnIndex}
    {x : SignedTx} (hx : Latest w.mem.m.st i x) : At w .retrieveFinalizedCount := by
  rcases h with ⟨_, _, rfl⟩ | ⟨h, _⟩
  · exact hg
  · rw [hc] at h; exact absurd hx (h i x)

omit [Keccak] in
/-- The smallest element of a sorted list is among the first ones. -/
theorem mem_take_of_least {β : Type} {f : β → Nat} {l : List β} (hs : l.Pairwise (fun x y => f x < f y)) {x : β} (hx : x ∈ l)
    (hleast : ∀ y ∈ l, f x ≤ f y) (k : Nat) : x ∈ l.take (k + 1) := by
  cases l with
  | nil => cases hx
  | cons y t =>
    rw [List.take_succ_cons]
    rcases List.mem_cons.1 hx with rfl | hx
    · exact List.mem_cons_self
    · exact absurd (hleast y (by simp)) (Nat.not_le_of_lt ((List.pairwise_cons.1 hs).1 x hx))

/-- The end of a round, from sending on: the transaction with the smallest nonce in use is offered to the chain. -/
theorem Spec.Serving.sends (S : Serving ρ α N) (E : Endless ρ) {j jc : Nat} (hj : N ≤ j) {g : GasFeeEstimate} {k : TransactionCount}
    (hh : Hears ρ α jc (.retrieveCount g) (.count (some k))) (hjc : jc ≤ j) {c : Mem} {nx : Next} (hc : c.m = (ρ j).mem.m)
    (h : ThenSends c (some k) (ρ j).mem nx) (hg : Goes (ρ j) nx) {i : LedgerBurnIndex} {x : SignedTx} (hx : Latest (ρ j).mem.m.st i x)
    (hleast : ∀ n, InUse (ρ j).mem.m.st n → x.tx.nonce ≤ n) :
    ∃ j₁ j₂, j ≤ j₁ ∧ jc ≤ j₂ ∧ At (ρ j₁) .retrieveFinalizedCount ∧ Latest (ρ j₁).mem.m.st i x ∧ Offered ρ α x.tx.nonce j₂ := by
  obtain ⟨all, h1, h2, h3⟩ := h
  have offered : Offered ρ α x.tx.nonce jc ∨ Offered ρ α x.tx.nonce j := by
    by_cases hk : k ≤ x.tx.nonce
    · right
      have hm : x ∈ all := (h2 x).2 ⟨⟨k, rfl, hk⟩, i, by rw [hc]; exact hx⟩
      rcases h3 with ⟨_, _, rfl⟩ | ⟨rfl, _⟩
      · obtain ⟨id, o, hp⟩ := hg
        refine .inl ⟨id, _, o, hp, x, mem_take_of_least (f := fun y : SignedTx => y.tx.nonce) h1 hm (fun y hy => ?_) 4, rfl⟩
        obtain ⟨_, i', hy⟩ := (h2 y).1 hy
        rw [hc] at hy
        exact hleast _ hy.inUse
      · cases hm
    · exact .inl (.inr ⟨g, k, hh, Nat.lt_of_not_le hk⟩)
  have fin : ∃ j₁, j ≤ j₁ ∧ At (ρ j₁) .retrieveFinalizedCount ∧ Latest (ρ j₁).mem.m.st i x := by
    rcases h3 with ⟨_, _, rfl⟩ | ⟨_, h3⟩
    · obtain ⟨j', hj', hs, _, a, ha⟩ := S.answers E hj (t := .retrieveSend (all.take 5)) rfl hg
      have hshape : a = .sent := by
        obtain ⟨⟨_, _, _, _, _, _, _, h⟩, _⟩ := ha
        cases a with
        | sent => rfl
        | _ => rcases h with ⟨_, _, h, _⟩ | ⟨_, _, h, _⟩ <;> simp [ExtTask.resume] at h
      subst hshape
      have hN := Nat.le_trans hj hj'
      obtain ⟨c', n', r1, r2⟩ := C71_sent (E.reachable j') (S.never E hN) (all.take 5) 0
      have hsh : ∀ t, n' ≠ .await (.ledger t) := by
        rintro t rfl
        rcases resume_forward rfl r1 with h | ⟨_, h, _⟩ <;> cases h
      obtain ⟨k1, k2⟩ := ha.1.goes (E.reachable j') (E.reachable (j' + 1)) rfl (fun _ => r1) hsh
      have hm : (ρ (j' + 1)).mem.m = (ρ j').mem.m := by
        rw [k1]
        rcases r2 with ⟨_, rfl, _⟩ | ⟨_, rfl, _⟩ <;> rfl
      have hx' : Latest (ρ (j' + 1)).mem.m.st i x := by rw [hm]; exact hs.latest.2 hx
      exact ⟨j' + 1, by omega, finalizes (c := (ρ j').mem) hm.symm (by rw [k1]; exact r2) k2 hx', hx'⟩
    · exact ⟨j, Nat.le_refl j, finalizes hc h3 hg hx, hx⟩
  obtain ⟨j₁, f1, f2, f3⟩ := fin
  rcases offered with ho | ho
  · exact ⟨j₁, jc, f1, Nat.le_refl _, f2, f3, ho⟩
  · exact ⟨j₁, j, f1, hjc, f2, f3, ho⟩

/-- A round offers the transaction with the smallest nonce in use to the chain, and asks for the finalized transaction count. -/
theorem Spec.Serving.offers (S : Serving ρ α N) (E : Endless ρ) {e j : Nat} (he : N ≤ e) (hj : e ≤ j) {n : TransactionNonce}
    (hsmall : ∀ i, e ≤ i → ∀ n' < n, ¬ InUse (ρ i).mem.m.st n') (huse : ∀ i, e ≤ i → InUse (ρ i).mem.m.st n) {g : GasFeeEstimate}
    {k : TransactionCount} (hat : At (ρ j) (.retrieveCount g)) (hh : Hears ρ α j (.retrieveCount g) (.count (some k))) :
    ∃ j₁ j₂ i x, j ≤ j₁ ∧ j ≤ j₂ ∧ At (ρ j₁) .retrieveFinalizedCount ∧ Latest (ρ j₁).mem.m.st i x ∧ x.tx.nonce = n ∧ Offered ρ α n j₂ := by
  have hN := Nat.le_trans he hj
  have hleast : ∀ i, e ≤ i → ∀ n', InUse (ρ i).mem.m.st n' → n ≤ n' := fun i hi n' hu =>
    Nat.le_of_not_lt fun hlt => hsmall i hi n' hlt hu
  obtain ⟨inUse, u1, u2, batch, rest, u3, u4⟩ := exists_batch (S.run E hN) (S.never E hN)
  obtain ⟨_, c, nx, h1, h2, h3⟩ := S.create E hN hat hh u1 u2 u3 u4
  obtain ⟨all, a1, a2, a3⟩ := h2
  rcases a3 with ⟨_, _, rfl⟩ | ⟨rfl, a3⟩
  · obtain ⟨j', hj', hs, hat', a, ha⟩ := S.answers E (Nat.le_succ_of_le hN) (t := .retrieveSign (some k) (all.take 5)) rfl h3
    have hshape : ∃ sigs, a = .signatures sigs := by
      obtain ⟨⟨_, _, _, _, _, _, _, h⟩, _⟩ := ha
      cases a with
      | signatures l => exact ⟨l, rfl⟩
      | _ => rcases h with ⟨_, _, h, _⟩ | ⟨_, _, h, _⟩ <;> simp [ExtTask.resume] at h
    obtain ⟨sigs, rfl⟩ := hshape
    have hN' : N ≤ j' := by omega
    obtain ⟨hlen, hnone⟩ := S.signed j' hN' _ _ _ ha
    obtain ⟨id, o, hp⟩ := hat'
    obtain ⟨m, c', n', r1, r2, r3, _, _, r4, _, r5⟩ := C71_sign (E.reachable j') (S.never E hN') hp sigs 0
    have hsh : ∀ t, n' ≠ .await (.ledger t) := by
      rintro t rfl
      rcases resume_forward rfl r1 with h | ⟨_, h, _⟩ <;> cases h
    obtain ⟨k1, k2⟩ := ha.1.goes (E.reachable j') (E.reachable (j' + 1)) rfl (fun _ => r1) hsh
    have hm : (ρ (j' + 1)).mem.m = m := by rw [k1, r2]
    have hwait : ∀ i tx, (i, tx) ∈ all ↔ Waiting (ρ (j + 1)).mem.m.st i tx := by rw [← h1]; exact a2
    have hx : ∃ i x, Latest m.st i x ∧ x.tx.nonce = n := by
      rcases Classical.em (∃ i tx, Waiting (ρ (j + 1)).mem.m.st i tx ∧ tx.nonce = n) with ⟨i, tx, hw, htx⟩ | hno
      · have hmem : (i, tx) ∈ all.take 5 := by
          refine mem_take_of_least (f := fun y : LedgerBurnIndex × Tx => y.2.nonce) a1 ((hwait i tx).2 hw) (fun y hy => ?_) 4
          show tx.nonce ≤ _
          rw [htx]
          exact hleast (j + 1) (by omega) _ ((hwait y.1 y.2).1 hy).inUse
        obtain ⟨k, hk, hget⟩ := List.getElem_of_mem hmem
        have hk' : k < sigs.length := Nat.lt_of_lt_of_le hk hlen
        cases hsig : sigs[k] with
        | none => exact absurd (hsig ▸ List.getElem_mem hk') hnone
        | some sig =>
          have hz : ((i, tx), some sig) ∈ (all.take 5).zip sigs := by
            refine List.mem_iff_getElem.2 ⟨k, by rw [List.length_zip]; omega, ?_⟩
            rw [List.getElem_zip, hget, hsig]
          exact ⟨i, _, (r3 i tx sig hz).1, htx⟩
      · rcases inUse_cases (S.run E (Nat.le_succ_of_le hN)) (S.never E (Nat.le_succ_of_le hN)) (huse (j + 1) (by omega)) with hw | ⟨i, x, hx, hxn⟩
        · exact absurd hw hno
        · refine ⟨i, x, (r4 i x fun y hy heq => hno ?_).2 (hs.latest.2 hx), hxn⟩
          exact ⟨y.1, y.2, (hwait y.1 y.2).1 (List.mem_of_mem_take hy), heq.trans hxn⟩
    obtain ⟨i, x, hx, hxn⟩ := hx
    obtain ⟨j₁, j₂, f1, f2, f3, f4, f5⟩ := S.sends E (j := j' + 1) (by omega) hh (by omega) (c := { (ρ j').mem with m := m }) hm.symm
      (by rw [k1]; exact r5) k2 (i := i) (x := x) (by rw [hm]; exact hx) (by rw [hxn]; exact hleast (j' + 1) (by omega))
    exact ⟨j₁, j₂, i, x, by omega, f2, f3, f4, hxn, hxn ▸ f5⟩
  · have hN' := Nat.le_succ_of_le hN
    rcases inUse_cases (S.run E hN') (S.never E hN') (huse (j + 1) (by omega)) with ⟨i, tx, hw, _⟩ | ⟨i, x, hx, hxn⟩
    · rw [h1] at a2
      exact absurd ((a2 i tx).2 hw) (by simp)
    · obtain ⟨j₁, j₂, f1, f2, f3, f4, f5⟩ := S.sends E (j := j + 1) hN' hh (by omega) h1 a3 h3 hx (by rw [hxn]; exact hleast (j + 1) (by omega))
      exact ⟨j₁, j₂, i, x, by omega, f2, f3, f4, hxn, hxn ▸ f5⟩

/-- When the finalized transaction count includes the transaction, it is finalized. -/
theorem Spec.Serving.finishes (S : Serving ρ α N) (E : Endless ρ) {j : Nat} (hj : N ≤ j) (hat : At (ρ j) .retrieveFinalizedCount)
    {i : LedgerBurnIndex} {x : SignedTx} (hx : Latest (ρ j).mem.m.st i x)
    (hk : ∀ i, j ≤ i → ∀ k, Hears ρ α i .retrieveFinalizedCount (.count (some k)) → x.tx.nonce < k) :
    ∃ j', j ≤ j' ∧ ¬ InUse (ρ j').mem.m.st x.tx.nonce := by
  obtain ⟨j₁, h1, h2, _, a, ha⟩ := S.answers E hj (t := .retrieveFinalizedCount) rfl hat
  have hshape : ∃ k, a = .count k := by
    obtain ⟨⟨_, _, _, _, _, _, _, h⟩, _⟩ := ha
    cases a with
    | count l => exact ⟨l, rfl⟩
    | _ => rcases h with ⟨_, _, h, _⟩ | ⟨_, _, h, _⟩ <;> simp [ExtTask.resume] at h
  obtain ⟨k, rfl⟩ := hshape
  have hN₁ := Nat.le_trans hj h1
  cases k with
  | none => exact absurd rfl (S.finalized j₁ hN₁ none ha)
  | some k =>
    have hlt := hk j₁ h1 k ha
    obtain ⟨_, f, f1, f2⟩ := C71_finalize (E.reachable j₁) (S.never E hN₁) (S.hashes j₁ hN₁) k 0
    obtain ⟨l, rs, l1, l2⟩ := h2.latest.2 hx
    have hmem : ⟨x, rs⟩ ∈ l := List.mem_of_getLast? l2
    have hfi : f.get x.hash = some i := (f1 _ _).2 ⟨_, l, _, l1, hlt, hmem, rfl⟩
    have hne : f.toList ≠ [] := by
      intro h
      have := FMap.mem_toList.2 hfi
      rw [h] at this; cases this
    rw [if_neg hne] at f2
    obtain ⟨k1, k2⟩ := ha.1.goes (E.reachable j₁) (E.reachable (j₁ + 1)) rfl (fun _ => f2) (by simp)
    obtain ⟨j₂, g1, g2, g3, b, hb⟩ := S.answers E (Nat.le_succ_of_le hN₁) (t := .retrieveReceipts f) rfl k2
    have hshape : ∃ k, b = .receipts k := by
      obtain ⟨⟨_, _, _, _, _, _, _, h⟩, _⟩ := hb
      cases b with
      | receipts l => exact ⟨l, rfl⟩
      | _ => rcases h with ⟨_, _, h, _⟩ | ⟨_, _, h, _⟩ <;> simp [ExtTask.resume] at h
    obtain ⟨rl, rfl⟩ := hshape
    have hN₂ : N ≤ j₂ := by omega
    obtain ⟨ans, rfl, hmined⟩ := S.mined j₂ hN₂ f rl hb
    obtain ⟨id, o, hp⟩ := g3
    have snd := S.sound j₂ hN₂
    obtain ⟨inv₂, tl₂, _⟩ := run_txInv (S.run E hN₂) (S.never E hN₂)
    obtain ⟨c, c1, _, c3, _, _⟩ := C60_finalized (E.reachable j₂) (S.never E hN₂) snd.distinct snd.native snd.tokens snd.limit hp hmined
      (fun _ i' q _ hq => S.tokens j₂ hN₂ q ((tl₂.acc (.erc20 q)).2 (.inr (by
        rw [inv₂.procIdx _ _ hq]; exact hq)))) 0
    obtain ⟨e1, _⟩ := hb.1.goes (E.reachable j₂) (E.reachable (j₂ + 1)) rfl (fun _ => c1) (by simp)
    obtain ⟨hash', r, m1, m2⟩ := hmined.mined _ _ hfi
    obtain ⟨fin, m3, _, _⟩ := c3 _ _ _ m1 m2
    refine ⟨j₂ + 1, by omega, fun hu => ?_⟩
    have hN₃ := Nat.le_succ_of_le hN₂
    obtain ⟨inv₃, tl₃, _⟩ := run_txInv (S.run E hN₃) (S.never E hN₃)
    have hsent : (ρ j₂).mem.m.st.txs.sent.Has x.tx.nonce i l := by
      rw [g2.sent, k1]; exact MKM.getEntry_eq.1 l1
    obtain ⟨tx₀, p1, p2, _⟩ := tl₂.core3 _ _ _ (.inr (.inl ⟨l, _, hsent, hmem, rfl⟩))
    obtain ⟨es, p3⟩ := (grows_between E (Nat.le_succ j₂)).log
    have p4 := tl₃.core1 i tx₀ (by rw [p3]; simp [p1])
    obtain ⟨i', tx', q1, q2, q3⟩ := (inUse_log (S.run E hN₃) (S.never E hN₃)).1 hu
    have p5 := tl₃.core1 i' tx' q1
    rw [q2] at p5
    rw [p2] at p4
    obtain ⟨rfl, _⟩ := Core.unique inv₃ p4 p5
    rw [← e1] at m3
    obtain ⟨n', hn'⟩ := (MKM.getAlt_eq inv₃.fw).1 m3
    exact q3 _ (tl₃.finLog _ _ _ hn').1

/-- **No nonce stays in use for ever.** -/
theorem Spec.Serving.settles (S : Serving ρ α N) (E : Endless ρ) (hm : Mines ρ α) {i : Nat} (hi : N ≤ i) (n : TransactionNonce)
    (hlt : n < (ρ i).mem.m.st.txs.nextNonce) : ∃ e, i ≤ e ∧ ∀ j, e ≤ j → ¬ InUse (ρ j).mem.m.st n := by
  induction n using Nat.strongRecOn with
  | _ n ih =>
    have hsmall : ∀ m ≤ n, ∃ e, i ≤ e ∧ ∀ j, e ≤ j → ∀ n' < m, ¬ InUse (ρ j).mem.m.st n' := by
      intro m
      induction m with
      | zero => intro _; exact ⟨i, Nat.le_refl i, fun _ _ n' h => absurd h (Nat.not_lt_zero _)⟩
      | succ m ihm =>
        intro hm
        obtain ⟨e, h1, h2⟩ := ihm (Nat.le_of_succ_le hm)
        obtain ⟨e', h3, h4⟩ := ih m (Nat.lt_of_succ_le hm) (Nat.lt_trans (Nat.lt_of_succ_le hm) hlt)
        refine ⟨max e e', by omega, fun j hj n' hn' => ?_⟩
        rcases Nat.lt_succ_iff_lt_or_eq.1 hn' with h | rfl
        · exact h2 j (by omega) n' h
        · exact h4 j (by omega)
    obtain ⟨e, he, hs⟩ := hsmall n (Nat.le_refl n)
    apply Classical.byContradiction
    intro hno
    -- otherwise the nonce is in use for ever
    have huse : ∀ j, i ≤ j → InUse (ρ j).mem.m.st n := fun j hj => Classical.byContradiction fun hu => by
      refine hno ⟨j, hj, fun k hk => S.gone E (Nat.le_trans hi hj) hk ?_ hu⟩
      refine Nat.lt_of_lt_of_le hlt ?_
      obtain ⟨es, h1, h2⟩ := S.plain E hi hj
      rw [(run_txInv (S.run E hi) (S.never E hi)).2.2, (run_txInv (S.run E (Nat.le_trans hi hj)) (S.never E (Nat.le_trans hi hj))).2.2, h1,
        expectedNonce, expectedNonce, List.foldl_append]
      exact expectedNonce_le es h2 _
    have hround : ∀ j, e ≤ j → ∃ j₁ j₂ i x, j ≤ j₁ ∧ j ≤ j₂ ∧ At (ρ j₁) .retrieveFinalizedCount ∧ Latest (ρ j₁).mem.m.st i x ∧ x.tx.nonce = n ∧
        Offered ρ α n j₂ := by
      intro j hj
      obtain ⟨j', g, k, h1, h2, h3⟩ := S.counts E (i := j) (by omega) fun k hk => .inr ⟨n, huse k (by omega)⟩
      obtain ⟨j₁, j₂, i', x, h4, h5, h6⟩ := S.offers E (Nat.le_trans hi he) (Nat.le_trans hj h1) hs (fun k hk => huse k (by omega)) h2 h3
      exact ⟨j₁, j₂, i', x, by omega, by omega, h6⟩
    obtain ⟨M, hM⟩ := hm n e hs fun k => by
      obtain ⟨_, j₂, _, _, _, h, _, _, _, ho⟩ := hround (max e k) (by omega)
      exact ⟨j₂, by omega, ho⟩
    obtain ⟨j₁, _, i', x, h1, _, h3, h4, h5, _⟩ := hround (max e M) (by omega)
    obtain ⟨j', h6, h7⟩ := S.finishes E (j := j₁) (by omega) h3 h4 fun k hk c hc => by rw [h5]; exact hM k (by omega) c hc
    rw [h5] at h7
    exact h7 (huse j' (by omega))

end
end EvmMinter
