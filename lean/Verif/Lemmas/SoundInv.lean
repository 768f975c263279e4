import Verif.Lemmas.Sound
/-!
# Soundness of all transactions in an execution
-/

namespace EvmMinter

open Spec Transactions

variable [Keccak]

/-- An execution passes through every prefix of its log. -/
theorem run_at {log pre post : List Event} {e : Event} {s : State} (h : Run log s) (hl : log = pre ++ e :: post)
    (hne : pre ≠ []) : ∃ s₁ s₂, Run pre s₁ ∧ Emits s₁ e ∧ applyEvent s₁ e = .ok s₂ ∧ Run (pre ++ [e]) s₂ := by
  induction h generalizing pre post e with
  | init a s h =>
    cases pre with
    | nil => exact absurd rfl hne
    | cons x t => simp at hl
  | event log s e' s' hr he ha ih =>
    rcases List.eq_nil_or_concat post with rfl | ⟨post', x, rfl⟩
    · obtain ⟨rfl, h2⟩ := List.append_inj' hl rfl
      simp only [List.cons.injEq, and_true] at h2
      subst h2
      exact ⟨s, s', hr, he, ha, .event _ _ _ _ hr he ha⟩
    · have : log ++ [e'] = (pre ++ e :: post') ++ [x] := by simpa using hl
      obtain ⟨h1, _⟩ := List.append_inj' this rfl
      exact ih h1 hne
  | reschedule log s r t hr hm ht ih => exact ih hl hne
  | scraped log s b hr ih => exact ih hl hne
  | restart log s s' hr hs ih => exact ih hl hne

/-- The first event of an execution is `Init`, and no other is. -/
theorem run_head {log : List Event} {s : State} (h : Run log s) : ∃ a t, log = .init a :: t := by
  obtain ⟨s₀, h, _⟩ := run_replay h
  cases log with
  | nil => cases h
  | cons e t => 
    obtain ⟨a, _, rfl, _⟩ := replay_cons h
    exact ⟨a, t, rfl⟩

theorem run_mem {log : List Event} {e : Event} {s : State} (h : Run log s) (he : e ∈ log) (hi : ∀ a, e ≠ .init a) :
    ∃ pre post s₁ s₂, log = pre ++ e :: post ∧ Run pre s₁ ∧ Emits s₁ e ∧ applyEvent s₁ e = .ok s₂ ∧
      Run (pre ++ [e]) s₂ := by
  obtain ⟨pre, post, rfl⟩ := List.append_of_mem he
  have hne : pre ≠ [] := by
    rintro rfl
    obtain ⟨a, t, h⟩ := run_head h
    simp only [List.nil_append, List.cons.injEq] at h
    exact hi a h.1
  obtain ⟨s₁, s₂, h⟩ := run_at h rfl hne
  exact ⟨pre, post, s₁, s₂, rfl, h⟩

omit [Keccak] in
theorem TxInv.setP {t : Transactions} (h : t.TxInv) {p : List Request} (hp : t.pending.Perm p) : (t.setP p).TxInv := by
  obtain ⟨h1, h2, h3, h4, h5, h6, h7, h8, h9, h10, h11, h12, h13, h14, h15, h16, h17, h18, h19, h20⟩ := h
  exact ⟨h1, h2, h3, PendingNodup.perm h4 hp, fun r hr => h5 r (hp.mem_iff.2 hr), h6, h7, h8, h9, h10, h11, h12, h13,
    h14, h15, h16, h17, h18, h19, h20⟩

theorem TxLog.setP {log : List Event} {t : Transactions} (h : TxLog log t) {p : List Request} (hp : t.pending.Perm p) :
    TxLog log (t.setP p) := by
  obtain ⟨h1, h2, h3, h4, h5, h6, h7, h8, h9, h10, h11, h12, h13, h14, h15, h16, h17⟩ := h
  refine ⟨?_, h2, h3, h4, h5, h6, h7, h8, h9, h10, h11, h12, h13, h14, h15, h16, h17⟩
  intro r
  rw [h1, hp.mem_iff]; rfl

/-- The pipeline invariants hold in the live state. -/
theorem run_txInv {log : List Event} {s : State} (h : Run log s) (hn : NonceNeverLowered log) :
    s.txs.TxInv ∧ TxLog log s.txs ∧ s.txs.nextNonce = expectedNonce log := by
  obtain ⟨s₀, h1, h2, h3, h4⟩ := run_replay h
  have e : s.txs = s₀.txs.setP s.txs.pending := congrArg State.txs h4
  have i := txInv_of_replay h1 hn
  rw [e]
  exact ⟨TxInv.setP i.1 h3, (txLog_of_replay h1 hn).setP h3, i.2⟩

theorem request_ne_init (r : Request) (a : InitArg) : r.intoEvent ≠ .init a := by
  cases r <;> simp [Request.intoEvent]

/-- Accepted requests fit in 256 bits. -/
theorem run_bounded {log : List Event} {s : State} (h : Run log s) {r : Request} (hr : r.intoEvent ∈ log) :
    r.Bounded := by
  obtain ⟨_, _, s₁, _, _, _, he, _⟩ := run_mem h hr (request_ne_init r)
  cases r with
  | native q => exact he.1
  | erc20 q => exact ⟨he.2.1, he.2.2.1, he.2.2.2.1⟩

theorem run_network {log : List Event} {s : State} (h : Run log s) : 
    ∃ a t, log = .init a :: t ∧ s.evmNetwork = a.evmNetwork := by
  obtain ⟨s₀, h1, _, _, h4⟩ := run_replay h
  rw [h4]
  show ∃ a t, _ ∧ s₀.evmNetwork = _
  refine replay_induct (P := fun log s => ∃ a t, log = .init a :: t ∧ s.evmNetwork = a.evmNetwork) ?_ ?_ h1
  · intro a s h
    obtain ⟨_, _, _, _, _, _, _, _, _, _, _, h, _⟩ := ofInit_ok h
    exact ⟨a, [], rfl, h⟩
  · rintro log s e s' _ ⟨a, t, rfl, h⟩ ha
    exact ⟨a, t ++ [e], rfl, (applyEvent_network ha).trans h⟩

/-- Where the transactions of the pipeline come from. -/
theorem txs_step {t t' : Transactions} {e : Event} (h : t.TxInv) (ht : txEvent t e = .ok t') :
    (∀ n i c, t'.created.Has n i c → t.created.Has n i c ∨
      (∃ r, e = .createdTransaction i c.transaction ∧ r ∈ t.pending ∧ r.burnIndex = i ∧ t'.processed.get i = some r) ∨
      (∃ j l last, e = .replacedTransaction j c.transaction ∧ c.transaction.nonce = n ∧ t.sent.Has n i l ∧ 
        l.getLast? = some last ∧ c.resubmission = last.resubmission)) ∧
    (∀ n i l x, t'.sent.Has n i l → x ∈ l → (∃ l', t.sent.Has n i l' ∧ x ∈ l') ∨
      (∃ c, t.created.Has n i c ∧ c.transaction = x.transaction.tx)) ∧
    (∀ n i f, t'.finalized.Has n i f → t.finalized.Has n i f ∨
      (∃ l x, t.sent.Has n i l ∧ x ∈ l ∧ x.transaction = f.signed)) ∧
    (∀ i r, t.processed.get i = some r → t'.processed.get i = some r) := by
  have same : t'.created = t.created → t'.sent = t.sent → t'.finalized = t.finalized → 
      (∀ i r, t.processed.get i = some r → t'.processed.get i = some r) → _ := 
    fun h1 h2 h3 h4 => (⟨fun n i c hc => .inl (h1 ▸ hc), fun n i l x hl hx => .inl ⟨l, h2 ▸ hl, hx⟩,
      fun n i f hf => .inl (h3 ▸ hf), h4⟩ :
        (∀ n i c, t'.created.Has n i c → t.created.Has n i c ∨
          (∃ r, e = .createdTransaction i c.transaction ∧ r ∈ t.pending ∧ r.burnIndex = i ∧
            t'.processed.get i = some r) ∨
          (∃ j l last, e = .replacedTransaction j c.transaction ∧ c.transaction.nonce = n ∧ t.sent.Has n i l ∧ 
            l.getLast? = some last ∧ c.resubmission = last.resubmission)) ∧
        (∀ n i l x, t'.sent.Has n i l → x ∈ l → (∃ l', t.sent.Has n i l' ∧ x ∈ l') ∨
          (∃ c, t.created.Has n i c ∧ c.transaction = x.transaction.tx)) ∧
        (∀ n i f, t'.finalized.Has n i f → t.finalized.Has n i f ∨
          (∃ l x, t.sent.Has n i l ∧ x ∈ l ∧ x.transaction = f.signed)) ∧
        (∀ i r, t.processed.get i = some r → t'.processed.get i = some r))
  cases e <;> simp only [txEvent] at ht
  case upgrade a =>
    simp only [Except.ok.injEq] at ht; subst ht
    have := withNonce_frame t a.nextTransactionNonce
    exact same this.2.2.1 this.2.2.2.1 this.2.2.2.2.1 (fun i r h => by rw [this.2.1]; exact h)
  case acceptedNativeWithdrawalRequest r =>
    have := (recordWithdrawalRequest_ok h.maps ht).1; subst this
    exact same rfl rfl rfl (fun _ _ h => h)
  case acceptedErc20WithdrawalRequest r =>
    have := (recordWithdrawalRequest_ok h.maps ht).1; subst this
    exact same rfl rfl rfl (fun _ _ h => h)
  case createdTransaction j tx =>
    obtain ⟨q, created, e1, _, e2, e3, e4, e5, e6, e7, e8, e9, rfl⟩ := recordCreatedTransaction_ok ht
    refine ⟨?_, fun n i l x hl hx => .inl ⟨l, hl, hx⟩, fun n i f hf => .inl hf, ?_⟩
    · intro n i c hc
      rcases (MKM.tryInsert_has h.cw e9).1 hc with ⟨rfl, rfl, rfl⟩ | hc
      · exact .inr (.inl ⟨q, rfl, e1, e2, by simp⟩)
      · exact .inl hc
    · intro i r hr
      simp only [FMap.get_insert]
      split
      · rename_i hj; rw [hj, e7] at hr; cases hr
      · exact hr
  case signedTransaction j stx =>
    obtain ⟨i', c, created, sent, e1, e2, ⟨o, e3⟩, e4, rfl⟩ := recordSignedTransaction_ok ht
    obtain ⟨old, hold, hsh⟩ := signed_sent h e1 e4
    refine ⟨?_, ?_, fun n i f hf => .inl hf, fun _ _ h => h⟩
    · intro n i c hc
      exact .inl ((MKM.removeEntry_has h.cw e3).1 hc).2
    · intro n i l x hl hx
      rcases (hsh _ _ _).1 hl with ⟨rfl, rfl, rfl⟩ | ⟨_, hl⟩
      · simp only [List.mem_append, List.mem_singleton] at hx
        rcases hx with hx | rfl
        · rcases hold with ⟨rfl, _⟩ | hold
          · cases hx
          · exact .inl ⟨_, hold, hx⟩
        · exact .inr ⟨c, e1, e2⟩
      · exact .inl ⟨l, hl, hx⟩
  case replacedTransaction j tx =>
    obtain ⟨i', l, last, created₁, created, e1, e2, e3, ⟨o, e4⟩, e5, rfl⟩ := recordResubmitTransaction_ok ht
    refine ⟨?_, fun n i l x hl hx => .inl ⟨l, hl, hx⟩, fun n i f hf => .inl hf, fun _ _ h => h⟩
    intro n i c hc
    rcases (MKM.tryInsert_has (MKM.removeEntry_wf h.cw e4) e5).1 hc with ⟨rfl, rfl, rfl⟩ | hc
    · exact .inr (.inr ⟨j, l, last, rfl, rfl, e1, e2, rfl⟩)
    · exact .inl ((MKM.removeEntry_has h.cw e4).1 hc).2
  case finalizedTransaction j receipt =>
    obtain ⟨m, l, stx, sent, created, finalized, r, e1, e2, e3, e4, e5, ⟨o, e6⟩, ⟨o', e7⟩, e8, ⟨_, e9⟩, e10, e11⟩ :=
      recordFinalizedTransaction_ok h.maps ht
    have hn : stx.transaction.tx.nonce = m := (h.sN _ _ _ e1).2.2 stx e2
    rw [hn] at e6 e7 e8
    have key : t'.created = created ∧ t'.sent = sent ∧ t'.finalized = finalized ∧ t'.processed = t.processed := by
      rcases e11 with ⟨_, rfl⟩ | ⟨_, _, _, _, rfl⟩ <;> exact ⟨rfl, rfl, rfl, rfl⟩
    obtain ⟨k1, k2, k3, k4⟩ := key
    refine ⟨?_, ?_, ?_, fun i r h => by rw [k4]; exact h⟩
    · intro n i c hc
      rw [k1] at hc
      exact .inl ((MKM.removeEntry_has h.cw e7).1 hc).2
    · intro n i l x hl hx
      rw [k2] at hl
      exact .inl ⟨l, ((MKM.removeEntry_has h.sw e6).1 hl).2, hx⟩
    · intro n i f hf
      rw [k3] at hf
      rcases (MKM.tryInsert_has h.fw e8).1 hf with ⟨rfl, rfl, rfl⟩ | hf
      · exact .inr ⟨l, stx, e1, e2, rfl⟩
      · exact .inl hf
  case reimbursedNativeWithdrawal q =>
    obtain ⟨rr, h1, h2, rfl⟩ := recordFinalizedReimbursement_ok ht
    exact same rfl rfl rfl (fun _ _ h => h)
  case reimbursedErc20Withdrawal n l q =>
    obtain ⟨rr, h1, h2, rfl⟩ := recordFinalizedReimbursement_ok ht
    exact same rfl rfl rfl (fun _ _ h => h)
  case failedErc20WithdrawalRequest r =>
    obtain ⟨_, h1, h2, rfl⟩ := recordReimbursementRequest_ok ht
    exact same rfl rfl rfl (fun _ _ h => h)
  all_goals
    (simp only [Except.ok.injEq] at ht; subst ht
     exact same rfl rfl rfl (fun _ _ h => h))

/-- All transactions in the pipeline are sound for their requests. -/
structure SoundInv (net : EvmNetwork) (t : Transactions) : Prop where
  c : ∀ n i c, t.created.Has n i c → ∃ r, t.processed.get i = some r ∧ Sound net r c.transaction
  s : ∀ n i l x, t.sent.Has n i l → x ∈ l → ∃ r, t.processed.get i = some r ∧ Sound net r x.transaction.tx
  f : ∀ n i f, t.finalized.Has n i f → ∃ r, t.processed.get i = some r ∧ Sound net r f.signed.tx

theorem SoundInv.step {s s' : State} {e : Event} {log : List Event} (h : s.txs.TxInv) (hl : TxLog log s.txs)
    (hr : Run log s) (inv : SoundInv s.evmNetwork s.txs) (he : Emits s e) (ha : applyEvent s e = .ok s') :
    SoundInv s.evmNetwork s'.txs := by
  obtain ⟨h1, h2, h3, h4⟩ := txs_step h (applyEvent_txs ha)
  refine ⟨?_, ?_, ?_⟩
  · intro n i c hc
    rcases h1 n i c hc with hc | ⟨r, rfl, hm, hb, hp⟩ | ⟨j, l, last, rfl, hn, hl', hlast, hres⟩
    · obtain ⟨r, hr, hs⟩ := inv.c n i c hc
      exact ⟨r, h4 _ _ hr, hs⟩
    · obtain ⟨r', g, hg, hm', hb', hc'⟩ := he
      have := pairwise_unique h.pend hm' hm (hb'.trans hb.symm)
      subst this
      exact ⟨r', hp, create_sound hg (run_bounded hr ((hl.acc r').2 (.inl hm))) hc'⟩
    · obtain ⟨l', last', g, hg, hge, hlast', hre⟩ := he
      rw [MKM.getEntry_eq, hn] at hge
      obtain ⟨rfl, rfl⟩ := MKM.Has.unique_key hge hl'
      rw [hlast'] at hlast; cases hlast
      have hmem : last ∈ l' := List.mem_of_getLast? hlast'
      obtain ⟨r, hr, hs⟩ := inv.s n j l' last hl' hmem
      obtain ⟨r', hr', hstrat⟩ := h.sProc n j l' hl'
      rw [hr] at hr'; cases hr'
      exact ⟨r, h4 _ _ hr, replaced_sound hg hs (hstrat last hmem).1 hre⟩
  · intro n i l x hlx hx
    rcases h2 n i l x hlx hx with ⟨l', hl', hx'⟩ | ⟨c, hc, hcx⟩
    · obtain ⟨r, hr, hs⟩ := inv.s n i l' x hl' hx'
      exact ⟨r, h4 _ _ hr, hs⟩
    · obtain ⟨r, hr, hs⟩ := inv.c n i c hc
      exact ⟨r, h4 _ _ hr, hcx ▸ hs⟩
  · intro n i f hf
    rcases h3 n i f hf with hf | ⟨l, x, hlx, hx, hfx⟩
    · obtain ⟨r, hr, hs⟩ := inv.f n i f hf
      exact ⟨r, h4 _ _ hr, hs⟩
    · obtain ⟨r, hr, hs⟩ := inv.s n i l x hlx hx
      exact ⟨r, h4 _ _ hr, hfx ▸ hs⟩

theorem run_sound {log : List Event} {s : State} (h : Run log s) (hn : NonceNeverLowered log) :
    SoundInv s.evmNetwork s.txs := by
  induction h with
  | init a s h =>
    obtain ⟨_, _, _, _, _, _, _, h, _⟩ := ofInit_ok h
    rw [h]
    exact ⟨fun _ _ _ h => absurd h MKM.not_has_empty, fun _ _ _ _ h => absurd h MKM.not_has_empty,
      fun _ _ _ h => absurd h MKM.not_has_empty⟩
  | event log s e s' hr he ha ih =>
    have hn' := nonceNeverLowered_prefix hn
    obtain ⟨h1, h2, _⟩ := run_txInv hr hn'
    rw [applyEvent_network ha]
    exact SoundInv.step h1 h2 hr (ih hn') he ha
  | reschedule log s r t hr hm ht ih =>
    obtain ⟨h1, _⟩ := run_txInv hr hn
    obtain ⟨h5, _⟩ := reschedule_ok h1.pend hm ht
    obtain ⟨a, b, c⟩ := ih hn
    rw [h5]
    exact ⟨a, b, c⟩
  | scraped log s b hr ih => exact ih hn
  | restart log s s' hr hs ih =>
    obtain ⟨s₀, h1, h2, h3, h4⟩ := run_replay hr
    rw [hs, Except.ok.injEq] at h1; subst h1
    obtain ⟨a, b, c⟩ := ih hn
    rw [h4] at a b c
    exact ⟨a, b, c⟩

end EvmMinter
